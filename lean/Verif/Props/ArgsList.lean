import Verif.Props.Args
import Verif.Props.Command
import Verif.Props.Harness

/-!
# C13, C15, C55: argument lists
-/

namespace TF

open Spec

/-! ## Types of arguments -/

theorem argBasics_argTy {im : ImplM} {n n' : Nat} {a : FnArg} {i : Str} {e : SerE} {t : Ty}
    (h : argBasics im n a = .ok (i, e, t, n')) :
    ArgTy im a t ∧ ∃ b, e = .var b ∧ (∀ b', a.binder = some b' → b' = b) := by
  cases a with
  | receiver at' mu k =>
    cases im with
    | none => cases h
    | some x =>
      cases mu with
      | true => cases h
      | false =>
        cases k with
        | reference lt m => cases h; exact ⟨.recvRef .., _, rfl, fun b' h => (Option.some.inj h).symm⟩
        | value => cases h; exact ⟨.recvVal _ _ _ (by simp), _, rfl, fun b' h => (Option.some.inj h).symm⟩
        | typed => cases h; exact ⟨.recvVal _ _ _ (by simp), _, rfl, fun b' h => (Option.some.inj h).symm⟩
  | typed at' pat ty =>
    obtain ⟨ids, simple⟩ := pat
    cases ids with
    | nil =>
      cases im with
      | none => cases h; exact ⟨.free _ _ _ (by simp), _, rfl, fun b' h => by cases h⟩
      | some x =>
        simp only [argBasics] at h
        cases hx : ty.expandSelf x with
        | ok t' =>
          rw [hx, Out.ok_bind] at h; cases h
          exact ⟨.method _ _ _ _ _ (by simp) hx, _, rfl, fun b' h => by cases h⟩
        | _ => rw [hx] at h; cases h
    | cons j ids =>
      cases ids with
      | nil =>
        have hb : ∀ b', (FnArg.typed at' ⟨[j], simple⟩ ty).binder = some b' → b' = j := by
          intro b' h
          cases simple with
          | true => exact (Option.some.inj h).symm
          | false => cases h
        cases im with
        | none => cases h; exact ⟨.free _ _ _ (by simp), _, rfl, hb⟩
        | some x =>
          simp only [argBasics] at h
          cases hx : ty.expandSelf x with
          | ok t' =>
            rw [hx, Out.ok_bind] at h; cases h
            exact ⟨.method _ _ _ _ _ (by simp) hx, _, rfl, hb⟩
          | _ => rw [hx] at h; cases h
      | cons => cases im <;> cases h

theorem argBasics_total {im : ImplM} {a : FnArg} {t : Ty} (h : ArgTy im a t) (n : Nat) :
    ∃ i e n', argBasics im n a = .ok (i, e, t, n') := by
  cases h with
  | recvRef x at' lt m => exact ⟨_, _, _, rfl⟩
  | recvVal x at' k hk =>
    cases k with
    | reference lt m => exact absurd rfl (hk lt m)
    | value => exact ⟨_, _, _, rfl⟩
    | typed => exact ⟨_, _, _, rfl⟩
  | free at' pat t hp =>
    obtain ⟨ids, simple⟩ := pat
    cases ids with
    | nil => exact ⟨_, _, _, rfl⟩
    | cons j ids =>
      cases ids with
      | nil => exact ⟨_, _, _, rfl⟩
      | cons => simp at hp
  | method x at' pat t t' hp hx =>
    obtain ⟨ids, simple⟩ := pat
    cases ids with
    | nil => exact ⟨_, _, _, by simp only [argBasics, hx]; rfl⟩
    | cons j ids =>
      cases ids with
      | nil => exact ⟨_, _, _, by simp only [argBasics, hx]; rfl⟩
      | cons => simp at hp

theorem argTy_unique {im : ImplM} {a : FnArg} {t t' : Ty} (h : ArgTy im a t) (h' : ArgTy im a t') : t = t' := by
  obtain ⟨i, e, n, h1⟩ := argBasics_total h 0
  obtain ⟨i', e', n', h2⟩ := argBasics_total h' 0
  rw [h1] at h2
  cases h2
  rfl

/-! ## Marking conversions as used -/

/-- `c'` is `c` with the keys of `M` marked. -/
def Marks (c c' : Convs) (M : List (List Str)) : Prop :=
  c' = c.map fun e => { e with used := e.used || decide (e.key ∈ M) }

theorem Marks.refl (c : Convs) : Marks c c [] := by
  unfold Marks
  conv_lhs => rw [← List.map_id c]
  exact List.map_congr_left fun e _ => by simp

theorem Marks.trans {c c' c'' : Convs} {M M' : List (List Str)} (h : Marks c c' M) (h' : Marks c' c'' M') :
    Marks c c'' (M ++ M') := by
  unfold Marks at *
  rw [h', h, List.map_map]
  refine List.map_congr_left fun e _ => ?_
  simp [Bool.or_assoc]

theorem marks_mark (c : Convs) (t : Ty) : Marks c (c.mark t) [t.toks] := by
  unfold Marks Convs.mark
  refine List.map_congr_left fun e _ => ?_
  by_cases h : e.key = t.toks
  · rw [if_pos h]; simp [h]
  · rw [if_neg h]; simp [h]

theorem Marks.get {c c' : Convs} {M : List (List Str)} (h : Marks c c' M) (t : Ty) : c'.get t = c.get t := by
  unfold Marks at h
  subst h
  unfold Convs.get
  induction c with
  | nil => rfl
  | cons e c ih =>
    rw [List.map_cons, List.find?_cons, List.find?_cons]
    by_cases h : e.key = t.toks
    · simp [h]
    · rw [decide_eq_false h]; exact ih

theorem considered_path {cv : List (Ty × Ty)} {q : QSelf} {lead : Bool} {segs : Segs} {u : Ty}
    (h : Considered cv (.path q lead segs) u) : u = .path q lead segs := by
  cases h; rfl

theorem considered_slice {cv : List (Ty × Ty)} {t u : Ty} (h : Considered cv (.slice t) u) : u = .slice t := by
  cases h; rfl

theorem considered_other {cv : List (Ty × Ty)} {ps : Pieces} {u : Ty} (h : Considered cv (.other ps) u) :
    u = .other ps := by
  cases h; rfl

/-- Which conversion is marked. -/
theorem mapTypedArg_convs {cv : List (Ty × Ty)} {c : Convs} (ident : Str)
    (hc : ∀ t, c.get t ≠ none ↔ Converted cv t) :
    ∀ (t : Ty) (e : SerE),
      ((mapTypedArg ident c e t).convs = c ∧ ∀ u, Considered cv t u → ¬ Converted cv u) ∨
      ∃ u, (mapTypedArg ident c e t).convs = c.mark u ∧ Considered cv t u ∧ Converted cv u ∧
        ∀ u', Considered cv t u' → Converted cv u' → u' = u
  | t, e => by
    cases hg : c.get t with
    | some a =>
      have hconv : Converted cv t := (hc t).mp (by rw [hg]; simp)
      refine .inr ⟨t, by rw [mapTypedArg_get hg], .here t, hconv, fun u' h1 h2 => ?_⟩
      cases h1 with
      | here => rfl
      | ref lt m hn => exact absurd hconv hn
    | none =>
      have hconv : ¬ Converted cv t := fun h => (hc t).mpr h hg
      cases t with
      | path q lead segs =>
        refine .inl ⟨by simp only [mapTypedArg, hg]; rfl, fun u h => ?_⟩
        rw [considered_path h]; exact hconv
      | slice s =>
        refine .inl ⟨by simp only [mapTypedArg, hg]; rfl, fun u h => ?_⟩
        rw [considered_slice h]; exact hconv
      | other ps =>
        refine .inl ⟨by simp only [mapTypedArg, hg]; rfl, fun u h => ?_⟩
        rw [considered_other h]; exact hconv
      | ref lt m t =>
        have up : (∀ q lead segs, t ≠ .path q lead segs) → (∀ s, t ≠ .slice s) →
            (mapTypedArg ident c e (.ref lt m t)).convs = (mapTypedArg ident c (.deref e) t).convs →
            ((mapTypedArg ident c (.deref e) t).convs = c ∧ ∀ u, Considered cv t u → ¬ Converted cv u) ∨
              (∃ u, (mapTypedArg ident c (.deref e) t).convs = c.mark u ∧ Considered cv t u ∧ Converted cv u ∧
                ∀ u', Considered cv t u' → Converted cv u' → u' = u) →
            ((mapTypedArg ident c e (.ref lt m t)).convs = c ∧
              ∀ u, Considered cv (.ref lt m t) u → ¬ Converted cv u) ∨
              ∃ u, (mapTypedArg ident c e (.ref lt m t)).convs = c.mark u ∧ Considered cv (.ref lt m t) u ∧
                Converted cv u ∧ ∀ u', Considered cv (.ref lt m t) u' → Converted cv u' → u' = u := by
          intro h1 h2 he h
          rw [he]
          rcases h with ⟨h, h'⟩ | ⟨u, h, h3, h4, h5⟩
          · refine .inl ⟨h, fun u hu => ?_⟩
            cases hu with
            | here => exact hconv
            | ref _ _ _ _ _ hu => exact h' u hu
          · refine .inr ⟨u, h, .ref lt m hconv h1 h2 h3, h4, fun u' hu hu' => ?_⟩
            cases hu with
            | here => exact absurd hu' hconv
            | ref _ _ _ _ _ hu => exact h5 u' hu hu'
        cases t with
        | path q lead segs =>
          refine .inl ⟨?_, fun u h => ?_⟩
          · simp only [mapTypedArg, hg]; split <;> rfl
          · cases h with
            | here => exact hconv
            | ref _ _ _ h1 => exact absurd rfl (h1 _ _ _)
        | slice s =>
          refine .inl ⟨by simp only [mapTypedArg, hg], fun u h => ?_⟩
          cases h with
          | here => exact hconv
          | ref _ _ _ _ h1 => exact absurd rfl (h1 _)
        | other ps =>
          refine up (by simp) (by simp) ?_ (mapTypedArg_convs ident hc (.other ps) (.deref e))
          simp only [mapTypedArg, hg]
        | ref lt2 m2 t2 =>
          refine up (by simp) (by simp) ?_ (mapTypedArg_convs ident hc (.ref lt2 m2 t2) (.deref e))
          rw [mapTypedArg_ref hg]

/-! ## Lists of arguments -/

/-- The field for an argument. -/
def FieldFor (im : ImplM) (c : Convs) (a : FnArg) (f : FieldM) : Prop :=
  ∃ t b ck, ArgTy im a t ∧ (∀ u, Convs.get ck u = Convs.get c u) ∧ (∀ b', a.binder = some b' → b' = b) ∧
    (a.attrs = [] → f = ⟨[], f.ident, (mapTypedArg f.ident ck (.var b) t).ty, (mapTypedArg f.ident ck (.var b) t).ser,
      some (mapTypedArg f.ident ck (.var b) t).de⟩) ∧
    (a.attrs ≠ [] → f = ⟨a.attrs, f.ident, t, .cloneAs t (.var b), some (.field f.ident)⟩)

theorem mapArg_ok {im : ImplM} {c c' : Convs} {n n' : Nat} {a : FnArg} {f : FieldM}
    (h : mapArg im c n a = .ok (f, c', n')) :
    FieldFor im c a f ∧ ∃ i e t, argBasics im n a = .ok (i, e, t, n') ∧ f.ident = i ∧
      (a.attrs = [] → c' = (mapTypedArg i c e t).convs) ∧ (a.attrs ≠ [] → c' = c) := by
  unfold mapArg at h
  cases hb : argBasics im n a with
  | ok r =>
    obtain ⟨i, e, t, n1⟩ := r
    rw [hb, Out.ok_bind] at h
    obtain ⟨ht, b, rfl, hbi⟩ := argBasics_argTy hb
    simp only at h
    cases ha : a.attrs with
    | nil =>
      rw [ha] at h
      cases h
      refine ⟨⟨t, b, c, ht, fun _ => rfl, hbi, fun _ => rfl, fun h => absurd ha h⟩, i, _, t, rfl, rfl, fun _ => rfl,
        fun h => absurd rfl h⟩
    | cons x l =>
      rw [ha] at h
      cases h
      refine ⟨⟨t, b, c, ht, fun _ => rfl, hbi, fun h => ?_, fun _ => ?_⟩, i, _, t, rfl, rfl, fun h => (by cases h),
        fun _ => rfl⟩
      · rw [ha] at h; cases h
      · rw [ha]
  | _ => rw [hb] at h; cases h

theorem mapArgs_ok {im : ImplM} {cv : List (Ty × Ty)} : ∀ {l : List FnArg} {c c' : Convs} {n n' : Nat} {fs : List FieldM},
    (∀ t, c.get t ≠ none ↔ Converted cv t) → mapArgs im c n l = .ok (fs, c', n') →
    List.Forall₂ (FieldFor im c) l fs ∧
    ∃ M, Marks c c' M ∧ ∀ k, k ∈ M ↔ ∃ a ∈ l, a.attrs = [] ∧ ∃ t u, ArgTy im a t ∧ Considered cv t u ∧
      Converted cv u ∧ u.toks = k
  | [], c, c', n, n', fs, hc, h => by
    cases h
    exact ⟨.nil, [], .refl _, fun k => by simp⟩
  | a :: l, c, c', n, n', fs, hc, h => by
    rw [mapArgs] at h
    cases h1 : mapArg im c n a with
    | ok r =>
      obtain ⟨f, c1, n1⟩ := r
      rw [h1, Out.ok_bind] at h
      obtain ⟨hf, i, e, t, hb, hi, hn, hcs⟩ := mapArg_ok h1
      have ht := (argBasics_argTy hb).1
      obtain ⟨M1, hM1, hm1⟩ : ∃ M1, Marks c c1 M1 ∧ ∀ k, k ∈ M1 ↔ a.attrs = [] ∧ ∃ t u, ArgTy im a t ∧
          Considered cv t u ∧ Converted cv u ∧ u.toks = k := by
        by_cases ha : a.attrs = []
        · rw [hn ha]
          rcases mapTypedArg_convs i hc t e with ⟨h2, h3⟩ | ⟨u, h2, h3, h4, h5⟩
          · rw [h2]
            refine ⟨[], .refl _, fun k => ⟨fun h => (by cases h), ?_⟩⟩
            rintro ⟨-, t', u', ht', h6, h7, -⟩
            rw [argTy_unique ht' ht] at h6
            exact absurd h7 (h3 _ h6)
          · rw [h2]
            refine ⟨[u.toks], marks_mark _ _, fun k => ?_⟩
            rw [List.mem_singleton]
            constructor
            · rintro rfl; exact ⟨ha, t, u, ht, h3, h4, rfl⟩
            · rintro ⟨-, t', u', ht', h6, h7, rfl⟩
              rw [argTy_unique ht' ht] at h6
              rw [h5 _ h6 h7]
        · rw [hcs ha]
          exact ⟨[], .refl _, fun k => ⟨fun h => (by cases h), fun h => absurd h.1 ha⟩⟩
      have hget : ∀ u, c1.get u = c.get u := hM1.get
      have hc1 : ∀ t, c1.get t ≠ none ↔ Converted cv t := fun t => by rw [hget]; exact hc t
      simp only at h
      cases h2 : mapArgs im c1 n1 l with
      | ok r2 =>
        obtain ⟨fs2, c2, n2⟩ := r2
        rw [h2, Out.ok_bind] at h
        cases h
        obtain ⟨hF, M, hM, hm⟩ := mapArgs_ok hc1 h2
        refine ⟨.cons hf (hF.imp ?_), M1 ++ M, hM1.trans hM, fun k => ?_⟩
        · rintro a f ⟨t, b, ck, g1, g2, g3⟩
          exact ⟨t, b, ck, g1, fun u => (g2 u).trans (hget u), g3⟩
        · rw [List.mem_append, hm1, hm]
          simp only [List.mem_cons, exists_eq_or_imp]
      | _ => rw [h2] at h; cases h
    | _ => rw [h1] at h; cases h

theorem mapArgs_total {im : ImplM} : ∀ (l : List FnArg) (c : Convs) (n : Nat), (∀ a ∈ l, ∃ t, ArgTy im a t) →
    ∃ r, mapArgs im c n l = .ok r
  | [], c, n, _ => ⟨_, rfl⟩
  | a :: l, c, n, h => by
    obtain ⟨t, ht⟩ := h a (by simp)
    obtain ⟨i, e, n', hb⟩ := argBasics_total ht n
    have h1 : ∃ f c1, mapArg im c n a = .ok (f, c1, n') := by
      unfold mapArg
      rw [hb, Out.ok_bind]
      cases ha : a.attrs with
      | nil => exact ⟨_, _, rfl⟩
      | cons => exact ⟨_, _, rfl⟩
    obtain ⟨f, c1, h1⟩ := h1
    obtain ⟨r, h2⟩ := mapArgs_total l c1 n' fun a ha => h a (List.mem_cons_of_mem _ ha)
    obtain ⟨fs, c2, n2⟩ := r
    exact ⟨_, by rw [mapArgs, h1, Out.ok_bind]; simp only; rw [h2]; rfl⟩

theorem ofOpts_get_ne_none (cv : List (Ty × Ty)) (t : Ty) : (Convs.ofOpts cv).get t ≠ none ↔ Converted cv t := by
  rw [ofOpts_get, lastConv_isSome]

/-- The parts of a successful expansion. -/
theorem argsFields_ok {x : ArgsIn} {n n' : Nat} {fs : List FieldM} (h : argsFields x n = .ok (fs, n')) :
    ∃ fs1 c', mapArgs x.impl (Convs.ofOpts x.convert) (phantomFields n x.generics).2 x.inputs = .ok (fs1, c', n') ∧
      fs = fs1 ++ (phantomFields n x.generics).1 ∧ c'.all (·.used) = true := by
  unfold argsFields at h
  simp only at h
  cases h1 : mapArgs x.impl (Convs.ofOpts x.convert) (phantomFields n x.generics).2 x.inputs with
  | ok r =>
    obtain ⟨fs1, c1, n1⟩ := r
    rw [h1, Out.ok_bind] at h
    simp only at h
    split at h
    · rename_i hu; cases h; exact ⟨_, _, rfl, rfl, hu⟩
    · cases h
  | _ => rw [h1] at h; cases h

/-! ## C15 -/

theorem forall2_get {α β : Type} {R : α → β → Prop} {l : List α} {m : List β} (h : List.Forall₂ R l m) (k : Nat) (a : α)
    (ha : l[k]? = some a) : ∃ b, m[k]? = some b ∧ R a b := by
  induction h generalizing k with
  | nil => simp at ha
  | cons h1 _ ih =>
    cases k with
    | zero => simp at ha; subst ha; exact ⟨_, rfl, h1⟩
    | succ k => exact ih k (by simpa using ha)

/-- **C15.** The expansion succeeds just if every argument is one the macro can deal with and every conversion applies to
some argument without serde attributes. -/
theorem C15_all_used (x : ArgsIn) (n : Nat) :
    (∃ r, argsFields x n = .ok r) ↔ (∀ a ∈ x.inputs, ∃ t, ArgTy x.impl a t) ∧
      ∀ p ∈ x.convert, ∃ a ∈ x.inputs, a.attrs = [] ∧ ∃ t u, ArgTy x.impl a t ∧ Considered x.convert t u ∧
        u.toks = p.1.toks := by
  have hall : ∀ {c' : Convs} {M : List (List Str)}, Marks (Convs.ofOpts x.convert) c' M →
      (c'.all (·.used) = true ↔ ∀ p ∈ x.convert, p.1.toks ∈ M) := by
    intro c' M hM
    obtain ⟨h1, h2⟩ := ofOpts_mem x.convert
    rw [hM, List.all_map, List.all_eq_true]
    constructor
    · intro h p hp
      obtain ⟨e, he, hk⟩ := (h2 p.1.toks).mpr ⟨p, hp, rfl⟩
      have := h e he
      simp [h1 e he, hk] at this
      exact this
    · intro h e he
      obtain ⟨p, hp, hk⟩ := (h2 e.key).mp ⟨e, he, rfl⟩
      simp [h1 e he, ← hk, h p hp]
  constructor
  · rintro ⟨⟨fs, n'⟩, h⟩
    obtain ⟨fs1, c', h1, rfl, h2⟩ := argsFields_ok h
    obtain ⟨hF, M, hM, hm⟩ := mapArgs_ok (ofOpts_get_ne_none x.convert) h1
    refine ⟨fun a ha => ?_, fun p hp => ?_⟩
    · obtain ⟨k, hk⟩ := List.mem_iff_getElem?.mp ha
      obtain ⟨f, -, t, -, -, ht, -⟩ := forall2_get hF k a hk
      exact ⟨t, ht⟩
    · obtain ⟨a, ha, h3, t, u, h4, h5, -, h6⟩ := (hm _).mp ((hall hM).mp h2 p hp)
      exact ⟨a, ha, h3, t, u, h4, h5, h6⟩
  · rintro ⟨h1, h2⟩
    obtain ⟨⟨fs1, c', n'⟩, h3⟩ :=
      mapArgs_total x.inputs (Convs.ofOpts x.convert) (phantomFields n x.generics).2 h1
    obtain ⟨hF, M, hM, hm⟩ := mapArgs_ok (ofOpts_get_ne_none x.convert) h3
    have : c'.all (·.used) = true := by
      refine (hall hM).mpr fun p hp => ?_
      obtain ⟨a, ha, h3, t, u, h4, h5, h6⟩ := h2 p hp
      exact (hm _).mpr ⟨a, ha, h3, t, u, h4, h5, ⟨p, hp, h6.symm⟩, h6⟩
    exact ⟨_, by unfold argsFields; simp only; rw [h3, Out.ok_bind]; simp only; rw [if_pos this]⟩

/-- The field of an argument. -/
theorem field_of {x : ArgsIn} {n n' : Nat} {fs : List FieldM} (h : argsFields x n = .ok (fs, n')) {k : Nat} {a : FnArg}
    (ha : x.inputs[k]? = some a) : ∃ f, fs[k]? = some f ∧ FieldFor x.impl (Convs.ofOpts x.convert) a f := by
  obtain ⟨fs1, c', h1, rfl, h2⟩ := argsFields_ok h
  obtain ⟨hF, -⟩ := mapArgs_ok (ofOpts_get_ne_none x.convert) h1
  obtain ⟨f, hf, hff⟩ := forall2_get hF k a ha
  refine ⟨f, ?_, hff⟩
  rw [List.getElem?_append_left, hf]
  by_contra hlt
  rw [List.getElem?_eq_none (by omega)] at hf
  cases hf

/-- **C15.** The conversion that is applied to an argument is the last one given for its type. -/
theorem C15_last_wins (x : ArgsIn) (n n' : Nat) (fs : List FieldM) (h : argsFields x n = .ok (fs, n')) (k : Nat) (a : FnArg)
    (ha : x.inputs[k]? = some a) (hat : a.attrs = []) (t : Ty) (ht : ArgTy x.impl a t) (l1 l2 : List (Ty × Ty)) (p : Ty × Ty)
    (hcv : x.convert = l1 ++ p :: l2) (hp : p.1.toks = t.toks) (hl : ∀ q ∈ l2, q.1.toks ≠ t.toks) :
    ∃ f b, fs[k]? = some f ∧ f.ty = p.2 ∧ f.ser = .fromRef p.2 t (.var b) ∧ f.de = some (.into f.ident) := by
  obtain ⟨f, hf, t', b, ck, ht', hck, -, h1, -⟩ := field_of h ha
  rw [argTy_unique ht' ht] at h1
  have hg : ck.get t = some p.2 := by
    rw [hck, ofOpts_get, hcv]
    exact lastConv_append l1 l2 p t hp hl
  rw [mapTypedArg_get hg] at h1
  exact ⟨f, b, hf, by rw [h1 hat], by rw [h1 hat], by rw [h1 hat]⟩

/-- **C15.** Arguments with serde attributes get no conversion: the field has the argument's type and attributes. -/
theorem C15_attributes (x : ArgsIn) (n n' : Nat) (fs : List FieldM) (h : argsFields x n = .ok (fs, n')) (k : Nat) (a : FnArg)
    (ha : x.inputs[k]? = some a) (hat : a.attrs ≠ []) (t : Ty) (ht : ArgTy x.impl a t) :
    ∃ f b, fs[k]? = some f ∧ f.attrs = a.attrs ∧ f.ty = t ∧ f.ser = .cloneAs t (.var b) ∧ f.de = some (.field f.ident) := by
  obtain ⟨f, hf, t', b, ck, ht', hck, -, -, h1⟩ := field_of h ha
  rw [argTy_unique ht' ht] at h1
  exact ⟨f, b, hf, by rw [h1 hat], by rw [h1 hat], by rw [h1 hat], by rw [h1 hat]⟩

/-- Exception: a conversion for a path type does not apply behind a reference – `convert = "X, Y"` and an argument `&X`. -/
theorem C15_not_behind_references (q : QSelf) (lead : Bool) (segs : Segs) (cv : List (Ty × Ty)) (lt : Option Str) (m : Bool)
    (u : Ty) (h : Considered cv (.ref lt m (.path q lead segs)) u) : u = .ref lt m (.path q lead segs) := by
  cases h with
  | here => rfl
  | ref _ _ _ h => exact absurd rfl (h _ _ _)

/-! ## C55 -/

theorem anonymousIdent_inj {m n : Nat} (h : anonymousIdent m = anonymousIdent n) : m = n := by
  have h' : natStr m = natStr n := (List.cons.inj h).2
  exact (natStr_denotes m).unique (h' ▸ natStr_denotes n)

/-- The identifier of an argument: its own, or a numbered one. -/
theorem argBasics_ident {im : ImplM} {n n' : Nat} {a : FnArg} {i : Str} {e : SerE} {t : Ty}
    (h : argBasics im n a = .ok (i, e, t, n')) :
    (n' = n + 1 ∧ i = anonymousIdent n) ∨ (n' = n ∧ ∃ at' s ty, a = .typed at' ⟨[i], s⟩ ty) := by
  cases a with
  | receiver at' mu k =>
    cases im with
    | none => cases h
    | some x =>
      cases mu with
      | true => cases h
      | false => cases k <;> (cases h; exact .inl ⟨rfl, rfl⟩)
  | typed at' pat ty =>
    obtain ⟨ids, simple⟩ := pat
    cases ids with
    | nil =>
      cases im with
      | none => cases h; exact .inl ⟨rfl, rfl⟩
      | some x =>
        simp only [argBasics] at h
        cases hx : ty.expandSelf x with
        | ok t' => rw [hx, Out.ok_bind] at h; cases h; exact .inl ⟨rfl, rfl⟩
        | _ => rw [hx] at h; cases h
    | cons j ids =>
      cases ids with
      | nil =>
        cases im with
        | none => cases h; exact .inr ⟨rfl, _, _, _, rfl⟩
        | some x =>
          simp only [argBasics] at h
          cases hx : ty.expandSelf x with
          | ok t' => rw [hx, Out.ok_bind] at h; cases h; exact .inr ⟨rfl, _, _, _, rfl⟩
          | _ => rw [hx] at h; cases h
      | cons => cases im <;> cases h

/-- The names a parameter list gives itself. -/
def Spec.ownNames : List FnArg → List Str
  | [] => []
  | .typed _ ⟨[i], _⟩ _ :: l => i :: ownNames l
  | _ :: l => ownNames l

theorem mapArgs_idents {im : ImplM} : ∀ {l : List FnArg} {c c' : Convs} {n n' : Nat} {fs : List FieldM},
    mapArgs im c n l = .ok (fs, c', n') →
    n ≤ n' ∧ ((ownNames l).Nodup → (∀ i ∈ ownNames l, ¬ IsNumbered i) → (fs.map (·.ident)).Nodup) ∧
      ∀ f ∈ fs, f.ident ∈ ownNames l ∨ ∃ k, n ≤ k ∧ k < n' ∧ f.ident = anonymousIdent k
  | [], c, c', n, n', fs, h => by cases h; exact ⟨Nat.le_refl _, fun _ _ => List.nodup_nil, fun f hf => by cases hf⟩
  | a :: l, c, c', n, n', fs, h => by
    rw [mapArgs] at h
    cases h1 : mapArg im c n a with
    | ok r =>
      obtain ⟨f, c1, n1⟩ := r
      rw [h1, Out.ok_bind] at h
      simp only at h
      cases h2 : mapArgs im c1 n1 l with
      | ok r2 =>
        obtain ⟨fs2, c2, n2⟩ := r2
        rw [h2, Out.ok_bind] at h
        simp only [Out.ok.injEq, Prod.mk.injEq] at h
        obtain ⟨rfl, rfl, rfl⟩ := h
        obtain ⟨g1, g2, g3⟩ := mapArgs_idents h2
        obtain ⟨-, i, e, t, hb, rfl, -⟩ := mapArg_ok h1
        rcases argBasics_ident hb with ⟨rfl, hi⟩ | ⟨rfl, at', s, ty, rfl⟩
        · have hsub : ∀ x ∈ ownNames l, x ∈ ownNames (a :: l) := by
            intro x hx
            unfold ownNames
            split <;> simp_all
          have hsuf : (ownNames (a :: l)).Nodup → (ownNames l).Nodup := by
            intro h
            unfold ownNames at h
            split at h
            · cases ‹_ :: _ = [] › 
            · rename_i heq; cases heq; exact (List.nodup_cons.mp h).2
            · rename_i heq; cases heq; exact h
          refine ⟨by omega, fun hd hn => ?_, fun f' hf' => ?_⟩
          · rw [List.map_cons, List.nodup_cons]
            refine ⟨fun hm => ?_, g2 (hsuf hd) fun i hi => hn i (hsub i hi)⟩
            obtain ⟨f', hf', he⟩ := List.mem_map.mp hm
            rcases g3 f' hf' with h3 | ⟨k, h3, h4, h5⟩
            · refine hn _ (hsub _ h3) ⟨n, ?_⟩
              rw [he, hi]; rfl
            · rw [he, hi] at h5
              have := anonymousIdent_inj h5
              omega
          · rcases List.mem_cons.mp hf' with rfl | hf'
            · exact .inr ⟨n, Nat.le_refl _, by omega, hi⟩
            · rcases g3 f' hf' with h3 | ⟨k, h3, h4, h5⟩
              · exact .inl (hsub _ h3)
              · exact .inr ⟨k, by omega, h4, h5⟩
        · have hown : ownNames (.typed at' ⟨[f.ident], s⟩ ty :: l) = f.ident :: ownNames l := rfl
          rw [hown]
          refine ⟨g1, fun hd hn => ?_, fun f' hf' => ?_⟩
          · rw [List.map_cons, List.nodup_cons]
            rw [List.nodup_cons] at hd
            refine ⟨fun hm => ?_, g2 hd.2 fun i hi => hn i (List.mem_cons_of_mem _ hi)⟩
            obtain ⟨f', hf', he⟩ := List.mem_map.mp hm
            rcases g3 f' hf' with h3 | ⟨k, h3, h4, h5⟩
            · exact hd.1 (he ▸ h3)
            · exact hn f.ident (by simp) ⟨k, by rw [← he, h5]; rfl⟩
          · rcases List.mem_cons.mp hf' with rfl | hf'
            · exact .inl (by simp)
            · rcases g3 f' hf' with h3 | h3
              · exact .inl (List.mem_cons_of_mem _ h3)
              · exact .inr h3
      | _ => rw [h2] at h; cases h
    | _ => rw [h1] at h; cases h

theorem phantomFields_idents : ∀ (gs : List GParam) (n : Nat),
    n ≤ (phantomFields n gs).2 ∧ ((phantomFields n gs).1.map (·.ident)).Nodup ∧
    (∀ f ∈ (phantomFields n gs).1, ∃ k, n ≤ k ∧ k < (phantomFields n gs).2 ∧ f.ident = anonymousIdent k) ∧
    ∀ f ∈ (phantomFields n gs).1, f.de = none ∧ f.ser = .phantom ∧ ∃ ps, f.ty = tyPhantom ps
  | [], n => ⟨Nat.le_refl _, List.nodup_nil, (fun f hf => by cases hf), fun f hf => by cases hf⟩
  | g :: gs, n => by
    have cons : ∀ (ty : Ty), (∃ ps, ty = tyPhantom ps) →
        let r := phantomFields (n + 1) gs
        let F : List FieldM := ⟨[], anonymousIdent n, ty, .phantom, none⟩ :: r.1
        n ≤ r.2 ∧ (F.map (·.ident)).Nodup ∧ (∀ f ∈ F, ∃ k, n ≤ k ∧ k < r.2 ∧ f.ident = anonymousIdent k) ∧
          ∀ f ∈ F, f.de = none ∧ f.ser = .phantom ∧ ∃ ps, f.ty = tyPhantom ps := by
      intro ty hty
      obtain ⟨h1, h2, h3, h4⟩ := phantomFields_idents gs (n + 1)
      refine ⟨by omega, ?_, fun f hf => ?_, fun f hf => ?_⟩
      · rw [List.map_cons, List.nodup_cons]
        refine ⟨fun hm => ?_, h2⟩
        obtain ⟨f', hf', he⟩ := List.mem_map.mp hm
        obtain ⟨k, hk, -, h5⟩ := h3 f' hf'
        rw [he] at h5
        have := anonymousIdent_inj h5
        omega
      · rcases List.mem_cons.mp hf with rfl | hf
        · exact ⟨n, Nat.le_refl _, by omega, rfl⟩
        · obtain ⟨k, hk, hk', h5⟩ := h3 f hf
          exact ⟨k, by omega, hk', h5⟩
      · rcases List.mem_cons.mp hf with rfl | hf
        · exact ⟨rfl, rfl, hty⟩
        · exact h4 f hf
    cases g with
    | ty i => exact cons _ ⟨_, rfl⟩
    | lifetime s => exact cons _ ⟨_, rfl⟩
    | const i => exact phantomFields_idents gs n

/-- **C55.** The fields of `Args` have different names, if the parameters have and none of them is `_` and a number. -/
theorem C55_distinct (x : ArgsIn) (n n' : Nat) (fs : List FieldM) (h : argsFields x n = .ok (fs, n'))
    (hd : (ownNames x.inputs).Nodup) (hn : ∀ i ∈ ownNames x.inputs, ¬ IsNumbered i) : (fs.map (·.ident)).Nodup := by
  obtain ⟨fs1, c', h1, rfl, -⟩ := argsFields_ok h
  obtain ⟨g1, g2, g3⟩ := mapArgs_idents h1
  obtain ⟨p1, p2, p3, -⟩ := phantomFields_idents x.generics n
  rw [List.map_append, List.nodup_append]
  refine ⟨g2 hd hn, p2, ?_⟩
  intro a ha b hb he
  obtain ⟨f, hf, rfl⟩ := List.mem_map.mp ha
  obtain ⟨f', hf', rfl⟩ := List.mem_map.mp hb
  obtain ⟨k', hk1, hk2, hk3⟩ := p3 f' hf'
  rcases g3 f hf with h3 | ⟨k, h3, h4, h5⟩
  · exact hn _ h3 ⟨k', by rw [he, hk3]; rfl⟩
  · rw [h5, hk3] at he
    have := anonymousIdent_inj he
    omega

/-- **C55.** Otherwise they can clash, at any point of a compilation: a method with the parameters `&self` and `_n`. -/
theorem C55_clash (x : SelfCtx) (n : Nat) :
    ∃ fs n', argsFields ⟨some x, [], [], [.receiver [] false (.reference none false),
        .typed [] ⟨[anonymousIdent n], true⟩ (.other .nil)]⟩ n = .ok (fs, n') ∧ ¬ (fs.map (·.ident)).Nodup := by
  refine ⟨[⟨[], anonymousIdent n, (mapTypedArg (anonymousIdent n) [] (.var c%"self") (.ref none false x.self)).ty,
      (mapTypedArg (anonymousIdent n) [] (.var c%"self") (.ref none false x.self)).ser,
      some (mapTypedArg (anonymousIdent n) [] (.var c%"self") (.ref none false x.self)).de⟩,
    ⟨[], anonymousIdent n, .other .nil, .clone (.var (anonymousIdent n)), some (.field (anonymousIdent n))⟩], n + 1, ?_, ?_⟩
  · have hc : (mapTypedArg (anonymousIdent n) [] (.var c%"self") (.ref none false x.self)).convs = [] := by
      rcases mapTypedArg_convs (cv := []) (c := []) (anonymousIdent n) (fun t => by simp [Convs.get, Converted])
        (.ref none false x.self) (.var c%"self") with ⟨h, -⟩ | ⟨u, h, -⟩
      · exact h
      · rw [h]; rfl
    have h1 : mapArg (some x) [] n (.receiver [] false (.reference none false)) =
        .ok (⟨[], anonymousIdent n, (mapTypedArg (anonymousIdent n) [] (.var c%"self") (.ref none false x.self)).ty,
          (mapTypedArg (anonymousIdent n) [] (.var c%"self") (.ref none false x.self)).ser,
          some (mapTypedArg (anonymousIdent n) [] (.var c%"self") (.ref none false x.self)).de⟩, [], n + 1) := by
      unfold mapArg argBasics
      rw [Out.ok_bind]
      simp only
      rw [hc]
      rfl
    have h2 : mapArg (some x) [] (n + 1) (.typed [] ⟨[anonymousIdent n], true⟩ (.other .nil)) =
        .ok (⟨[], anonymousIdent n, .other .nil, .clone (.var (anonymousIdent n)), some (.field (anonymousIdent n))⟩, [],
          n + 1) := rfl
    show (mapArgs (some x) [] n _ >>= _) = _
    rw [mapArgs, h1, Out.ok_bind]
    simp only
    rw [mapArgs, h2, Out.ok_bind]
    rfl
  · simp

end TF
