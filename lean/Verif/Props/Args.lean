import Verif.Spec.Args
import Mathlib.Data.List.Forall2
import Mathlib.Tactic.Common

/-!
# C14, C15: argument adaptation and conversions
-/

namespace TF

open Spec

/-! ## Conversions -/

theorem Convs.insert_get (c : Convs) (k v t : Ty) :
    (c.insert k v).get t = if k.toks = t.toks then some v else c.get t := by
  unfold Convs.insert
  by_cases ha : c.any (fun e => e.key = k.toks)
  · rw [if_pos ha]
    unfold Convs.get
    induction c with
    | nil => simp at ha
    | cons e c ih =>
      rw [List.map_cons, List.find?_cons, List.find?_cons]
      by_cases he : e.key = k.toks
      · rw [if_pos he]
        by_cases ht : k.toks = t.toks
        · rw [if_pos ht]; simp [he, ht]
        · rw [if_neg ht]
          have : ¬ e.key = t.toks := by rw [he]; exact ht
          simp only [this, decide_false]
          by_cases hc : c.any (fun e => e.key = k.toks)
          · rw [ih hc, if_neg ht]
          · congr 2
            have : c.map (fun e => if e.key = k.toks then { e with value := v, used := false } else e) = c := by
              conv_rhs => rw [← List.map_id c]
              refine List.map_congr_left fun x hx => ?_
              rw [if_neg]; rfl
              intro h
              exact hc (List.any_eq_true.mpr ⟨x, hx, by simpa using h⟩)
            rw [this]
      · rw [if_neg he]
        have hc : c.any (fun e => e.key = k.toks) := by simpa [he] using ha
        by_cases ht : e.key = t.toks
        · have : ¬ k.toks = t.toks := fun h => he (ht.trans h.symm)
          rw [if_neg this]; simp [ht]
        · simp only [ht, decide_false]
          exact ih hc
  · rw [if_neg ha]
    unfold Convs.get
    rw [List.find?_append]
    by_cases ht : k.toks = t.toks
    · rw [if_pos ht]
      have : c.find? (fun e => decide (e.key = t.toks)) = none := by
        rw [List.find?_eq_none]
        intro x hx h
        exact ha (List.any_eq_true.mpr ⟨x, hx, by rw [ht]; exact h⟩)
      rw [this]
      simp [ht]
    · rw [if_neg ht]
      simp [ht]

/-- The last value with the key. -/
def lastConv (l : List (Ty × Ty)) (t : Ty) : Option Ty := (l.reverse.find? fun p => p.1.toks = t.toks).map (·.2)

theorem foldl_insert_get (l : List (Ty × Ty)) (c : Convs) (t : Ty) :
    (l.foldl (fun c p => c.insert p.1 p.2) c).get t = (lastConv l t).or (c.get t) := by
  induction l generalizing c with
  | nil => rfl
  | cons p l ih =>
    rw [List.foldl_cons, ih, Convs.insert_get]
    unfold lastConv
    rw [List.reverse_cons, List.find?_append]
    by_cases h : p.1.toks = t.toks
    · rw [if_pos h]
      cases hf : l.reverse.find? fun p => decide (p.1.toks = t.toks) with
      | none => simp [h]
      | some q => simp
    · rw [if_neg h]
      cases hf : l.reverse.find? fun p => decide (p.1.toks = t.toks) with
      | none => simp [h]
      | some q => simp

theorem ofOpts_get (l : List (Ty × Ty)) (t : Ty) : (Convs.ofOpts l).get t = lastConv l t := by
  unfold Convs.ofOpts
  rw [foldl_insert_get]
  cases lastConv l t <;> rfl

theorem lastConv_isSome (l : List (Ty × Ty)) (t : Ty) : lastConv l t ≠ none ↔ Converted l t := by
  unfold lastConv Converted
  rw [Ne, Option.map_eq_none_iff, List.find?_eq_none]
  simp

theorem lastConv_mem {l : List (Ty × Ty)} {t a : Ty} (h : lastConv l t = some a) :
    ∃ p ∈ l, p.1.toks = t.toks ∧ p.2 = a := by
  unfold lastConv at h
  rw [Option.map_eq_some_iff] at h
  obtain ⟨p, hp, rfl⟩ := h
  have h1 := List.mem_of_find?_eq_some hp
  have h2 := List.find?_some hp
  exact ⟨p, List.mem_reverse.mp h1, by simpa using h2, rfl⟩

theorem lastConv_append (l1 l2 : List (Ty × Ty)) (p : Ty × Ty) (t : Ty) (hp : p.1.toks = t.toks)
    (h : ∀ q ∈ l2, q.1.toks ≠ t.toks) : lastConv (l1 ++ p :: l2) t = some p.2 := by
  unfold lastConv
  rw [List.reverse_append, List.reverse_cons, List.find?_append, List.find?_append]
  have : l2.reverse.find? (fun p => decide (p.1.toks = t.toks)) = none := by
    rw [List.find?_eq_none]
    intro x hx; simpa using h x (List.mem_reverse.mp hx)
  rw [this]
  simp [hp]

theorem insert_mem {c : Convs} {k v : Ty} :
    (∀ e ∈ c.insert k v, e.used = true → ∃ e' ∈ c, e'.used = true) ∧
    ∀ key, (∃ e ∈ c.insert k v, e.key = key) ↔ (∃ e ∈ c, e.key = key) ∨ key = k.toks := by
  unfold Convs.insert
  by_cases ha : c.any (fun e => e.key = k.toks)
  · rw [if_pos ha]
    constructor
    · intro e he hu
      obtain ⟨x, hx, rfl⟩ := List.mem_map.mp he
      split at hu
      · cases hu
      · exact ⟨x, hx, hu⟩
    · intro key
      have hk : ∀ x : Conv, (if x.key = k.toks then { x with value := v, used := false } else x).key = x.key := by
        intro x; split <;> rfl
      constructor
      · rintro ⟨e, he, rfl⟩
        obtain ⟨x, hx, rfl⟩ := List.mem_map.mp he
        exact .inl ⟨x, hx, (hk x).symm⟩
      · rintro (⟨e, he, rfl⟩ | rfl)
        · exact ⟨_, List.mem_map_of_mem he, hk e⟩
        · obtain ⟨x, hx, h⟩ := List.any_eq_true.mp ha
          exact ⟨_, List.mem_map_of_mem hx, (hk x).trans (by simpa using h)⟩
  · rw [if_neg ha]
    constructor
    · intro e he hu
      rcases List.mem_append.mp he with h | h
      · exact ⟨e, h, hu⟩
      · rw [List.mem_singleton.mp h] at hu; cases hu
    · intro key
      constructor
      · rintro ⟨e, he, rfl⟩
        rcases List.mem_append.mp he with h | h
        · exact .inl ⟨e, h, rfl⟩
        · rw [List.mem_singleton.mp h]; exact .inr rfl
      · rintro (⟨e, he, rfl⟩ | rfl)
        · exact ⟨e, List.mem_append_left _ he, rfl⟩
        · exact ⟨_, List.mem_append_right _ (List.mem_singleton.mpr rfl), rfl⟩

theorem ofOpts_mem (l : List (Ty × Ty)) :
    (∀ e ∈ Convs.ofOpts l, e.used = false) ∧ ∀ key, (∃ e ∈ Convs.ofOpts l, e.key = key) ↔ ∃ p ∈ l, p.1.toks = key := by
  have main : ∀ (l : List (Ty × Ty)) (c : Convs), (∀ e ∈ c, e.used = false) →
      (∀ e ∈ l.foldl (fun c p => c.insert p.1 p.2) c, e.used = false) ∧
      ∀ key, (∃ e ∈ l.foldl (fun c p => c.insert p.1 p.2) c, e.key = key) ↔
        (∃ e ∈ c, e.key = key) ∨ ∃ p ∈ l, p.1.toks = key := by
    intro l
    induction l with
    | nil => intro c hc; exact ⟨hc, fun key => by simp⟩
    | cons p l ih =>
      intro c hc
      have hi := @insert_mem c p.1 p.2
      have hc' : ∀ e ∈ c.insert p.1 p.2, e.used = false := by
        intro e he
        cases hu : e.used with
        | false => rfl
        | true =>
          obtain ⟨e', h1, h2⟩ := hi.1 e he hu
          rw [hc e' h1] at h2; cases h2
      obtain ⟨h1, h2⟩ := ih _ hc'
      refine ⟨h1, fun key => ?_⟩
      rw [List.foldl_cons, h2, hi.2]
      constructor
      · rintro ((h | rfl) | ⟨q, hq, h⟩)
        · exact .inl h
        · exact .inr ⟨p, by simp, rfl⟩
        · exact .inr ⟨q, List.mem_cons_of_mem _ hq, h⟩
      · rintro (h | ⟨q, hq, rfl⟩)
        · exact .inl (.inl h)
        · rcases List.mem_cons.mp hq with rfl | hq
          · exact .inl (.inr rfl)
          · exact .inr ⟨q, hq, rfl⟩
  obtain ⟨h1, h2⟩ := main l [] (by simp)
  refine ⟨h1, fun key => ?_⟩
  unfold Convs.ofOpts
  rw [h2]
  simp

/-! ## C14 -/

theorem matchTypePath_str {q : QSelf} {lead : Bool} {segs : Segs} :
    matchTypePath q segs c%"str" = some .none ↔ IsStr (.path q lead segs) := by
  unfold matchTypePath IsStr
  cases q with
  | some t n => simp
  | none =>
    cases segs with
    | nil => simp [Segs.single]
    | cons j a r =>
      cases r with
      | nil =>
        by_cases hj : j = c%"str"
        · simp [Segs.single, hj]
        · simp [Segs.single, hj]
      | cons => simp [Segs.single]

section
variable {A : Type} {S : Sem A} {has : Ty → A → Prop}

theorem hasTy_opaque {v : Val A} {t : Ty} (h : HasTy has v t) (ht : Opaque t) : ∃ a, v = .base a ∧ has t a := by
  cases h with
  | base _ h => exact ⟨_, rfl, h⟩
  | str s lead => exact absurd ⟨lead, rfl⟩ ht
  | slice => exact absurd ht (by simp [Opaque])
  | ref => exact absurd ht (by simp [Opaque])

/-- What is to be shown of a result. -/
def Adapts (S : Sem A) (has : Ty → A → Prop) (env : Str → Option (Val A)) (ident : Str) (r : Mapped) (v : Val A) (t : Ty) :
    Prop :=
  ∃ w, r.ser.eval S env = some w ∧ HasTy has w r.ty ∧
    ∀ args : ArgsVal A, args.lookup ident = some (r.ty, w) → r.de.eval S args t = some v

theorem adapts_path (hS : Lawful S has) {env : Str → Option (Val A)} {ident : Str} {c : Convs} {e : SerE} {v : Val A}
    {t : Ty} (hv : HasTy has v t) (ht : Opaque t) (he : e.eval S env = some v) :
    Adapts S has env ident (mapPathArg c ident e t) v t := by
  obtain ⟨a, rfl, ha⟩ := hasTy_opaque hv ht
  refine ⟨.base a, ?_, .base ht ha, fun args h => ?_⟩
  · simp [mapPathArg, SerE.eval, he, hS.clone_eq]
  · simp only [mapPathArg, DeE.eval, Option.map_eq_some_iff]
    exact ⟨_, h, rfl⟩

theorem adapts_convert {env : Str → Option (Val A)} {ident : Str} {c : Convs} {e : SerE} {v : Val A} {t a : Ty}
    (h : HasTy has (.base (S.fromRef a t v)) a ∧ S.into a t (.base (S.fromRef a t v)) = v) (he : e.eval S env = some v) :
    Adapts S has env ident ⟨a, .fromRef a t e, .into ident, c⟩ v t := by
  refine ⟨.base (S.fromRef a t v), ?_, h.1, fun args hl => ?_⟩
  · simp [SerE.eval, he]
  · simp [DeE.eval, hl, h.2]

theorem mapTypedArg_get {ident : Str} {c : Convs} {e : SerE} {t a : Ty} (h : c.get t = some a) :
    mapTypedArg ident c e t = ⟨a, .fromRef a t e, .into ident, c.mark t⟩ := by
  cases t with
  | ref lt m t =>
    cases t with
    | ref lt2 m2 t2 =>
      rw [mapTypedArg, h]
      · exact nofun
      · exact nofun
    | _ => simp only [mapTypedArg, h]
  | _ => simp only [mapTypedArg, h]

theorem mapTypedArg_ref {ident : Str} {c : Convs} {e : SerE} {lt lt2 : Option Str} {m m2 : Bool} {t : Ty}
    (h : c.get (.ref lt m (.ref lt2 m2 t)) = none) :
    mapTypedArg ident c e (.ref lt m (.ref lt2 m2 t)) =
      ⟨(mapTypedArg ident c (.deref e) (.ref lt2 m2 t)).ty, (mapTypedArg ident c (.deref e) (.ref lt2 m2 t)).ser,
        .borrow m (mapTypedArg ident c (.deref e) (.ref lt2 m2 t)).de,
        (mapTypedArg ident c (.deref e) (.ref lt2 m2 t)).convs⟩ := by
  rw [mapTypedArg, h]
  · exact nofun
  · exact nofun

theorem mapTypedArg_adapts (hS : Lawful S has) (convert : List (Ty × Ty)) {env : Str → Option (Val A)} (ident : Str)
    (c : Convs) (hc : ∀ t a, c.get t = some a → ∃ p ∈ convert, p.1.toks = t.toks ∧ p.2 = a) :
    ∀ (t : Ty) (e : SerE) (v : Val A), HasTy has v t → Passable t → Inverse S has convert v t →
      e.eval S env = some v → Adapts S has env ident (mapTypedArg ident c e t) v t
  | .path q lead segs, e, v, hv, ht, hi, he => by
    cases hg : c.get (.path q lead segs) with
    | some a => rw [mapTypedArg_get hg]; exact adapts_convert (hi _ _ _ (.here _ _) (hc _ _ hg)) he
    | none => simp only [mapTypedArg, hg]; exact adapts_path hS hv ht he
  | .slice t, e, v, hv, ht, hi, he => ht.elim
  | .other ps, e, v, hv, ht, hi, he => by
    cases hg : c.get (.other ps) with
    | some a => rw [mapTypedArg_get hg]; exact adapts_convert (hi _ _ _ (.here _ _) (hc _ _ hg)) he
    | none => simp only [mapTypedArg, hg]; exact adapts_path hS hv ht he
  | .ref lt m t, e, v, hv, ht, hi, he => by
    cases hg : c.get (.ref lt m t) with
    | some a => rw [mapTypedArg_get hg]; exact adapts_convert (hi _ _ _ (.here _ _) (hc _ _ hg)) he
    | none =>
      have key : ∀ {r : Mapped} {v' : Val A}, v = .ref m v' → Adapts S has env ident r v' t →
          Adapts S has env ident ⟨r.ty, r.ser, .borrow m r.de, r.convs⟩ v (.ref lt m t) := by
        rintro r v' rfl ⟨w, h1, h2, h3⟩
        refine ⟨w, h1, h2, fun args hl => ?_⟩
        simp [DeE.eval, h3 args hl]
      have hd : ∀ v', v = .ref m v' → (SerE.deref e).eval S env = some v' := by
        rintro v' rfl; simp [SerE.eval, he]
      have hv' : ∃ v', v = .ref m v' ∧ HasTy has v' t := by
        cases hv with
        | base h _ => exact h.elim
        | ref _ _ h => exact ⟨_, rfl, h⟩
      obtain ⟨v', rfl, hvt⟩ := hv'
      have hi' : Inverse S has convert v' t := fun u s a hb h => hi u s a (.ref lt m hb) h
      cases t with
      | path q lead segs =>
        simp only [mapTypedArg, hg]
        by_cases hs : matchTypePath q segs c%"str" = some .none
        · rw [if_pos hs]
          obtain ⟨l, hl⟩ := matchTypePath_str (lead := lead).mp hs
          cases hl
          cases hvt with
          | base h _ => exact absurd ⟨lead, rfl⟩ h
          | str s _ =>
            refine ⟨.base (S.string s), by simp [SerE.eval, he], .base ?_ (hS.string_has s), fun args hl => ?_⟩
            · rintro ⟨l, hl⟩; cases hl
            · rw [DeE.eval, hl]; simp [hS.asStr_string]
        · rw [if_neg hs]
          exact key rfl (adapts_path hS hvt (fun h => hs (matchTypePath_str.mpr h)) (hd v' rfl))
      | slice t =>
        simp only [mapTypedArg, hg]
        cases hvt with
        | base h _ => exact h.elim
        | @slice l _ h =>
          have hm : l.map S.clone = l := by
            conv_rhs => rw [← List.map_id l]
            exact List.map_congr_left fun x _ => hS.clone_eq x
          refine ⟨.base (S.vec l), by simp [SerE.eval, he, hm], .base ?_ (hS.vec_has l t h), fun args hl => ?_⟩
          · rintro ⟨l, hl⟩; cases hl
          · rw [DeE.eval, hl]; simp [hS.asSlice_vec]
      | other ps =>
        have := mapTypedArg_adapts hS convert ident c hc (.other ps) (.deref e) v' hvt trivial hi' (hd v' rfl)
        simp only [mapTypedArg, hg] at this ⊢
        exact key rfl this
      | ref lt2 m2 t2 =>
        have := mapTypedArg_adapts hS convert ident c hc (.ref lt2 m2 t2) (.deref e) v' hvt trivial hi' (hd v' rfl)
        rw [mapTypedArg_ref hg]
        exact key rfl this

end

/-- **C14.** For every type an argument can have – references to any depth, `str`, slices, others – and every value of
it: the field's expression yields a value of the field's type, and the call's expression then yields the value. -/
theorem C14_loss_free {A : Type} (S : Sem A) (has : Ty → A → Prop) (hS : Lawful S has) (convert : List (Ty × Ty))
    (env : Str → Option (Val A)) (ident : Str) (e : SerE) (t : Ty) (v : Val A) (hv : HasTy has v t) (ht : Passable t)
    (hi : Inverse S has convert v t) (he : e.eval S env = some v) :
    let r := mapTypedArg ident (Convs.ofOpts convert) e t
    ∃ w, r.ser.eval S env = some w ∧ HasTy has w r.ty ∧
      ∀ args : ArgsVal A, args.lookup ident = some (r.ty, w) → r.de.eval S args t = some v :=
  mapTypedArg_adapts hS convert ident _ (fun t a h => lastConv_mem (by rw [← ofOpts_get]; exact h)) t e v hv ht hi he

/-- **C14.** Fields never hold `str` or a slice by themselves, and without conversions the field's type is the argument's
with the outer references removed, `str` replaced by `String` and `[T]` by `Vec<T>`. -/
theorem C14_field_type (ident : Str) (e : SerE) (t : Ty) (ht : Passable t) :
    (∃ lts : List (Option Str × Bool), ∃ u, t = lts.foldr (fun p s => .ref p.1 p.2 s) u ∧
      ((Opaque u ∧ (mapTypedArg ident [] e t).ty = u) ∨
        (lts ≠ [] ∧ IsStr u ∧ (mapTypedArg ident [] e t).ty = .name c%"String") ∨
        (lts ≠ [] ∧ ∃ s, u = .slice s ∧
          (mapTypedArg ident [] e t).ty = .path .none false (.cons c%"Vec" (.angle false (.ty s .nil)) .nil)))) := by
  have main : ∀ (t : Ty) (e : SerE), Passable t → ∃ lts : List (Option Str × Bool), ∃ u,
      t = lts.foldr (fun p s => .ref p.1 p.2 s) u ∧
      ((Opaque u ∧ (mapTypedArg ident [] e t).ty = u) ∨
        (lts ≠ [] ∧ IsStr u ∧ (mapTypedArg ident [] e t).ty = .name c%"String") ∨
        (lts ≠ [] ∧ ∃ s, u = .slice s ∧
          (mapTypedArg ident [] e t).ty = .path .none false (.cons c%"Vec" (.angle false (.ty s .nil)) .nil))) := by
    intro t
    induction t using Ty.rec (motive_2 := fun _ => True) (motive_3 := fun _ => True) (motive_4 := fun _ => True)
      (motive_5 := fun _ => True) with
    | path q lead segs => exact fun e ht => ⟨[], _, rfl, .inl ⟨ht, rfl⟩⟩
    | slice t => exact fun e ht => ht.elim
    | other ps => exact fun e _ => ⟨[], _, rfl, .inl ⟨trivial, rfl⟩⟩
    | ref lt m t ih =>
      intro e _
      cases t with
      | path q lead segs =>
        refine ⟨[(lt, m)], .path q lead segs, rfl, ?_⟩
        by_cases hs : matchTypePath q segs c%"str" = some .none
        · refine .inr (.inl ⟨by simp, matchTypePath_str.mp hs, ?_⟩)
          simp [mapTypedArg, Convs.get, hs, tyString]
        · refine .inl ⟨fun h => hs (matchTypePath_str.mpr h), ?_⟩
          simp [mapTypedArg, Convs.get, hs, mapPathArg]
      | slice s => exact ⟨[(lt, m)], .slice s, rfl, .inr (.inr ⟨by simp, s, rfl, rfl⟩)⟩
      | other ps => exact ⟨[(lt, m)], .other ps, rfl, .inl ⟨trivial, rfl⟩⟩
      | ref lt2 m2 t2 =>
        obtain ⟨lts, u, h1, h2⟩ := ih (.deref e) trivial
        refine ⟨(lt, m) :: lts, u, by rw [List.foldr_cons, ← h1], ?_⟩
        have : (mapTypedArg ident [] e (.ref lt m (.ref lt2 m2 t2))).ty =
            (mapTypedArg ident [] (.deref e) (.ref lt2 m2 t2)).ty := by
          rw [mapTypedArg_ref rfl]
        rw [this]
        rcases h2 with h2 | ⟨h2, h3⟩ | ⟨h2, h3⟩
        · exact .inl h2
        · exact .inr (.inl ⟨by simp, h3⟩)
        · exact .inr (.inr ⟨by simp, h3⟩)
    | _ => trivial
  exact main t e ht

end TF
