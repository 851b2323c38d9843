import Verif.Spec.Traits
import Verif.Spec.DebugText
import Verif.Props.Auto
import Verif.Props.DebugText
import Mathlib.Tactic.Common

/-! # Which types are shown, and which have values: C81 -/

namespace TF

open Spec

theorem subst_subst (σ θ : Str → STy) (t : STy) : (t.subst σ).subst θ = t.subst fun n => (σ n).subst θ := by
  induction t <;> simp_all [STy.subst]

theorem subst_noParams {t : STy} (h : NoParams t) (θ : Str → STy) : t.subst θ = t := by
  induction t with
  | param n => exact h.elim
  | con n => rfl
  | app f a hf ha => simp only [STy.subst, hf h.1, ha h.2]
  | assoc t n ht => simp only [STy.subst, ht h]

theorem assumed_mono {w : Traits} {Γ Δ : List Bound} (hs : ∀ b ∈ Γ, b ∈ Δ) {t : STy} {tr : Str} (h : Assumed w Γ t tr) :
    Assumed w Δ t tr := by
  induction h with
  | here h => exact .here (hs _ h)
  | super _ h ih => exact .super ih h

theorem holds_mono {w : Traits} {Γ Δ : List Bound} (hs : ∀ b ∈ Γ, b ∈ Δ) {t : STy} {tr : Str} (h : Holds w Γ t tr) :
    Holds w Δ t tr := by
  induction h with
  | assumed h => exact .assumed (assumed_mono hs h)
  | impl r σ hr _ ih => exact .impl r σ hr ih

theorem assumed_nil {w : Traits} {t : STy} {tr : Str} : ¬ Assumed w [] t tr := by
  intro h
  generalize hΓ : ([] : List Bound) = Γ at h
  induction h with
  | here h => subst hΓ; cases h
  | super _ _ ih => exact ih

theorem holds_inv {w : Traits} {Γ : List Bound} {t : STy} {tr : Str} (h : Holds w Γ t tr) :
    Assumed w Γ t tr ∨ ∃ r ∈ w.impls, ∃ σ, t = r.pat.subst σ ∧ tr = r.trait ∧ ∀ c ∈ r.conds, Holds w Γ (c.1.subst σ) c.2 := by
  cases h with
  | assumed h => exact .inl h
  | impl r σ hr hc => exact .inr ⟨r, hr, σ, rfl, rfl, hc⟩

/-- **C81.** What is known about a type with parameters is true of all types that it stands for. -/
theorem C81_sound {w : Traits} (hw : SupersHold w) {Γ : List Bound} {θ : Str → STy} (hθ : Satisfies w Γ θ) {t : STy}
    {tr : Str} (h : Holds w Γ t tr) : Holds w [] (t.subst θ) tr := by
  induction h with
  | assumed h =>
    induction h with
    | here h => exact hθ _ h
    | super _ h ih => exact hw _ _ _ _ ih h
  | impl r σ hr _ ih =>
    rw [subst_subst]
    refine .impl r _ hr fun c hc => ?_
    have := ih c hc
    rwa [subst_subst] at this

/-- **C81.** For a type without parameters, it is all that is true. -/
theorem C81_complete {w : Traits} (hw : SupersHold w) {Γ : List Bound} {θ : Str → STy} (hθ : Satisfies w Γ θ) {t : STy}
    (ht : NoParams t) (tr : Str) : Holds w Γ t tr ↔ Holds w [] t tr := by
  constructor
  · intro h
    have := C81_sound hw hθ h
    rwa [subst_noParams ht] at this
  · exact holds_mono (by simp)

/-- **C81.** Of a parameter nothing is known but its bounds, with supertraits, and what is implemented for all types. -/
theorem C81_parameter {w : Traits} {tr : Str} (hn : NotForAll w tr) (Γ : List Bound) (n : Str) :
    Holds w Γ (.param n) tr ↔ Assumed w Γ (.param n) tr := by
  constructor
  · intro h
    rcases holds_inv h with h | ⟨r, hr, σ, he, rfl, -⟩
    · exact h
    · exfalso
      cases hp : r.pat with
      | param m => exact hn r hr rfl m hp
      | _ => rw [hp] at he; cases he
  · exact .assumed

/-! ## What is shown -/

/-- **C81.** An argument is shown as its `Debug` shows it if this trait follows from the bounds of the target; otherwise just the
name of its type is. -/
theorem C81_shown (w : Traits) (Γ : List Bound) (t : STy) (name : Str) (d : Dbg) (pretty : Bool) (text : Str)
    (h : TextOf pretty (tryDebug w Γ t name d) text) :
    (Holds w Γ t tDebug → text = (d pretty).flatten) ∧
      (¬ Holds w Γ t tDebug → text = c%"<unknown of type " ++ name ++ c%">") := by
  unfold tryDebug at h
  split at h
  · cases h
    exact ⟨fun _ => rfl, fun hn => absurd ‹_› hn⟩
  · cases h
    exact ⟨fun hn => absurd hn ‹_›, fun _ => rfl⟩

/-- **C81 (by name).** The trait in question is `core::fmt::Debug`. -/
theorem C81_shown_named (w : Traits) (Γ : List Bound) (t : STy) (name : Str) (d : Dbg) (pretty : Bool) (text : Str)
    (h : TextOf pretty (tryDebug w Γ t name d) text) :
    (Holds w Γ t c%"core::fmt::Debug" → text = (d pretty).flatten) ∧
      (¬ Holds w Γ t c%"core::fmt::Debug" → text = c%"<unknown of type " ++ name ++ c%">") :=
  C81_shown w Γ t name d pretty text h

/-- **C81.** If a target has no parameters, this depends on the types of its arguments only. -/
theorem C81_shown_plain {w : Traits} (hw : SupersHold w) {Γ : List Bound} {θ : Str → STy} (hθ : Satisfies w Γ θ) {t : STy}
    (ht : NoParams t) (name : Str) (d : Dbg) : tryDebug w Γ t name d = tryDebug w [] t name d := by
  unfold tryDebug
  rw [C81_complete hw hθ ht]

/-- **C81.** An argument whose type is a parameter without the bound is not shown, even if the type has a `Debug` for which the
parameter stands. A result of that type is shown then. -/
theorem C81_hidden {w : Traits} (hn : NotForAll w tDebug) (impl_ fn_ : BGenerics) (n : Str)
    (hb : ¬ Assumed w (impl_.combine fn_).bounds (.param n) tDebug) (θ : Str → STy) (hd : Holds w [] (θ n) tDebug)
    (field name : Str) (d : Dbg) :
    argsShown w impl_ fn_ [(field, .param n, name, d)] = [(field, .unknown name)] ∧
      retShown w θ (.param n) name d = .debug d := by
  constructor
  · simp only [argsShown, List.map_cons, List.map_nil, tryDebug]
    rw [if_neg (fun h => hb ((C81_parameter hn _ n).mp h))]
  · exact if_pos hd

/-- A bound on a type parameter of the impl or of the function, after the parameter or in a where clause. -/
def Spec.Stated (impl_ fn_ : BGenerics) (n tr : Str) : Prop :=
  ∃ g, (g = impl_ ∨ g = fn_) ∧ ((∃ bs, (GParam.ty n, bs) ∈ g.params ∧ tr ∈ bs) ∨ (STy.param n, tr) ∈ g.preds)

/-- A trait, its supertraits, theirs, and so on. -/
inductive Spec.SuperOf (w : Traits) : Str → Str → Prop where
  | self (tr) : SuperOf w tr tr
  | step {tr tr' tr''} : SuperOf w tr tr' → tr'' ∈ w.supers tr' → SuperOf w tr tr''

theorem mem_paramBounds {l : List (GParam × List Str)} {t : STy} {tr : Str} :
    (t, tr) ∈ paramBounds l ↔ ∃ n bs, t = .param n ∧ (GParam.ty n, bs) ∈ l ∧ tr ∈ bs := by
  induction l with
  | nil => simp [paramBounds]
  | cons x l ih =>
    obtain ⟨p, bs⟩ := x
    cases p <;> simp only [paramBounds, List.mem_append, List.mem_map, ih, List.mem_cons, Prod.mk.injEq]
    case ty i =>
      constructor
      · rintro (⟨b, hb, rfl, rfl⟩ | ⟨n, bs', h1, h2, h3⟩)
        · exact ⟨i, bs, rfl, .inl ⟨rfl, rfl⟩, hb⟩
        · exact ⟨n, bs', h1, .inr h2, h3⟩
      · rintro ⟨n, bs', h1, ⟨h2, rfl⟩ | h2, h3⟩
        · cases h2
          exact .inl ⟨tr, h3, h1.symm, rfl⟩
        · exact .inr ⟨n, bs', h1, h2, h3⟩
    all_goals simp

theorem stated_iff (impl_ fn_ : BGenerics) (n tr : Str) :
    (STy.param n, tr) ∈ (impl_.combine fn_).bounds ↔ Stated impl_ fn_ n tr := by
  simp only [BGenerics.bounds, BGenerics.combine, List.mem_append, mem_paramBounds, Stated, STy.param.injEq]
  constructor
  · rintro (⟨_, bs, rfl, h | h, h'⟩ | h | h)
    · exact ⟨_, .inl rfl, .inl ⟨bs, h, h'⟩⟩
    · exact ⟨_, .inr rfl, .inl ⟨bs, h, h'⟩⟩
    · exact ⟨_, .inl rfl, .inr h⟩
    · exact ⟨_, .inr rfl, .inr h⟩
  · rintro ⟨g, rfl | rfl, ⟨bs, h, h'⟩ | h⟩
    · exact .inl ⟨n, bs, rfl, .inl h, h'⟩
    · exact .inr (.inl h)
    · exact .inl ⟨n, bs, rfl, .inr h, h'⟩
    · exact .inr (.inr h)

/-- **C81.** An argument whose type is a parameter is shown exactly if a bound on this parameter, in the list of parameters or
in the where clause of the impl or of the function, is `Debug` or a trait with it as a supertrait. -/
theorem C81_stated {w : Traits} (hn : NotForAll w tDebug) (impl_ fn_ : BGenerics) (n field name : Str) (d : Dbg) :
    argsShown w impl_ fn_ [(field, .param n, name, d)] = [(field, .debug d)] ↔
      ∃ tr, Stated impl_ fn_ n tr ∧ SuperOf w tr tDebug := by
  have hA : ∀ tr', Assumed w (impl_.combine fn_).bounds (.param n) tr' ↔ ∃ tr, Stated impl_ fn_ n tr ∧ SuperOf w tr tr' := by
    intro tr'
    constructor
    · intro h
      generalize ht : STy.param n = t at h
      induction h with
      | here h => subst ht; exact ⟨_, (stated_iff ..).mp h, .self _⟩
      | super _ hs ih =>
        obtain ⟨tr, h1, h2⟩ := ih
        exact ⟨tr, h1, .step h2 hs⟩
    · rintro ⟨tr, h1, h2⟩
      induction h2 with
      | self => exact .here ((stated_iff ..).mpr h1)
      | step _ hs ih => exact .super ih hs
  simp only [argsShown, List.map_cons, List.map_nil, tryDebug]
  rw [← hA, ← C81_parameter hn]
  split
  · simp [*]
  · simp [*]

/-- **C81.** If an argument is shown, a result of the same type is. -/
theorem C81_result {w : Traits} (hw : SupersHold w) {impl_ fn_ : BGenerics} {θ : Str → STy}
    (hθ : Satisfies w (impl_.combine fn_).bounds θ) (t : STy) (field name : Str) (d d' : Dbg)
    (h : argsShown w impl_ fn_ [(field, t, name, d)] = [(field, .debug d')]) : retShown w θ t name d = .debug d' := by
  simp only [argsShown, List.map_cons, List.map_nil, tryDebug] at h
  split at h
  · cases h
    simp only [retShown, tryDebug]
    rw [if_pos (C81_sound hw hθ ‹_›)]
  · cases h

/-! ## Values -/

section
variable {α : Type}

theorem blanket_holds {w : Traits} {Γ : List Bound} {tr : Str} {conds : List Str} (h : blanket tr conds ∈ w.impls) {t : STy}
    (hc : ∀ c ∈ conds, Holds w Γ t c) : Holds w Γ t tr := by
  have := Holds.impl (w := w) (Γ := Γ) (blanket tr conds) (fun _ => t) h (by
    intro c hcm
    simp only [blanket, List.mem_map] at hcm
    obtain ⟨c', hc', rfl⟩ := hcm
    exact hc c' hc')
  exact this

theorem blanket_inv {w : Traits} {Γ : List Bound} {tr : Str} {conds : List Str}
    (h : ∀ r ∈ w.impls, r.trait = tr → r = blanket tr conds) {t : STy} (ht : Holds w Γ t tr) :
    Assumed w Γ t tr ∨ ∀ c ∈ conds, Holds w Γ t c := by
  rcases holds_inv ht with ha | ⟨r, hr, σ, he, hq, hc⟩
  · exact .inl ha
  · refine .inr fun c hcm => ?_
    have e := h r hr hq.symm
    subst e
    have := hc (.param c%"T", c) (by simp only [blanket, List.mem_map]; exact ⟨c, hcm, rfl⟩)
    rw [he]
    exact this

theorem runtime_unique {w : Traits} (h : WithRuntime w) {tr : Str} {conds : List Str}
    (hb : blanket tr conds ∈ runtimeImpls) : ∀ r ∈ w.impls, r.trait = tr → r = blanket tr conds := by
  intro r hr ht
  have hm : tr ∈ [tMinValueAddOne, tMaxValueSubOne, tTwo, tMiddle] := by
    simp only [runtimeImpls, List.mem_cons, List.not_mem_nil, or_false] at hb
    have hbt : (blanket tr conds).trait = tr := rfl
    rcases hb with hb | hb | hb | hb <;> rw [hb] at hbt <;> rw [← hbt] <;> decide
  have hr' := h.2 r hr (ht ▸ hm)
  have key : ∀ r ∈ runtimeImpls, ∀ s ∈ runtimeImpls, r.trait = s.trait → r = s := by
    simp only [runtimeImpls, List.mem_cons, List.not_mem_nil, or_false]
    rintro r (rfl | rfl | rfl | rfl) s (rfl | rfl | rfl | rfl) e <;>
      first | rfl | exact absurd e (by decide)
  exact key r hr' _ hb ht

/-- **C81.** The rows of the table in README.md: what has to be known for the values that are computed. A type without parameters
cannot have these traits otherwise. -/
theorem C81_rows {w : Traits} (hw : WithRuntime w) (Γ : List Bound) (t : STy) :
    (Holds w Γ t tMinValueAddOne ↔ Assumed w Γ t tMinValueAddOne ∨
      (Holds w Γ t tBounded ∧ Holds w Γ t tAdd ∧ Holds w Γ t tOne)) ∧
    (Holds w Γ t tMaxValueSubOne ↔ Assumed w Γ t tMaxValueSubOne ∨
      (Holds w Γ t tBounded ∧ Holds w Γ t tSub ∧ Holds w Γ t tOne)) ∧
    (Holds w Γ t tMiddle ↔ Assumed w Γ t tMiddle ∨
      (Holds w Γ t tBounded ∧ Holds w Γ t tAdd ∧ Holds w Γ t tDiv ∧ Holds w Γ t tOne)) := by
  have m : ∀ {tr conds}, blanket tr conds ∈ runtimeImpls → blanket tr conds ∈ w.impls := fun h => hw.1 _ h
  have b1 : blanket tMinValueAddOne [tAdd, tBounded, tOne] ∈ runtimeImpls := by simp [runtimeImpls]
  have b2 : blanket tMaxValueSubOne [tSub, tBounded, tOne] ∈ runtimeImpls := by simp [runtimeImpls]
  have b3 : blanket tTwo [tAdd, tOne] ∈ runtimeImpls := by simp [runtimeImpls]
  have b4 : blanket tMiddle [tAdd, tDiv, tBounded, tOne, tTwo] ∈ runtimeImpls := by simp [runtimeImpls]
  refine ⟨⟨fun h => ?_, ?_⟩, ⟨fun h => ?_, ?_⟩, ⟨fun h => ?_, ?_⟩⟩
  · refine (blanket_inv (runtime_unique hw b1) h).imp_right fun hc => ?_
    exact ⟨hc _ (by simp), hc _ (by simp), hc _ (by simp)⟩
  · rintro (h | ⟨h1, h2, h3⟩)
    · exact .assumed h
    · exact blanket_holds (m b1) (by simp [h1, h2, h3])
  · refine (blanket_inv (runtime_unique hw b2) h).imp_right fun hc => ?_
    exact ⟨hc _ (by simp), hc _ (by simp), hc _ (by simp)⟩
  · rintro (h | ⟨h1, h2, h3⟩)
    · exact .assumed h
    · exact blanket_holds (m b2) (by simp [h1, h2, h3])
  · refine (blanket_inv (runtime_unique hw b4) h).imp_right fun hc => ?_
    exact ⟨hc _ (by simp), hc _ (by simp), hc _ (by simp), hc _ (by simp)⟩
  · rintro (h | ⟨h1, h2, h3, h4⟩)
    · exact .assumed h
    · have : Holds w Γ t tTwo := blanket_holds (m b3) (by simp [h2, h4])
      exact blanket_holds (m b4) (by simp [h1, h2, h3, h4, this])

/-- **C81 (by name).** The rows of the table for a type that the bounds do not mention, with the names of the traits written out. -/
theorem C81_rows_named {w : Traits} (hw : WithRuntime w) (Γ : List Bound) (t : STy) (hn : ∀ tr, ¬ Assumed w Γ t tr) :
    (Holds w Γ t c%"test_fuzz_runtime::traits::MinValueAddOne" ↔ Holds w Γ t c%"num_traits::Bounded" ∧
      Holds w Γ t c%"core::ops::Add<Output = Self>" ∧ Holds w Γ t c%"num_traits::One") ∧
    (Holds w Γ t c%"test_fuzz_runtime::traits::MaxValueSubOne" ↔ Holds w Γ t c%"num_traits::Bounded" ∧
      Holds w Γ t c%"core::ops::Sub<Output = Self>" ∧ Holds w Γ t c%"num_traits::One") ∧
    (Holds w Γ t c%"test_fuzz_runtime::traits::Middle" ↔ Holds w Γ t c%"num_traits::Bounded" ∧
      Holds w Γ t c%"core::ops::Add<Output = Self>" ∧ Holds w Γ t c%"core::ops::Div<Output = Self>" ∧
      Holds w Γ t c%"num_traits::One") := by
  obtain ⟨h1, h2, h3⟩ := C81_rows hw Γ t
  exact ⟨h1.trans (or_iff_right (hn _)), h2.trans (or_iff_right (hn _)), h3.trans (or_iff_right (hn _))⟩

theorem autoImplIn_pos {w : Traits} {Γ : List Bound} {t : STy} {tr : Str} (h : Holds w Γ t tr)
    (x : Option (Out (List α))) : autoImplIn w Γ t tr x = autoImpl x := if_pos h

theorem autoImplIn_neg {w : Traits} {Γ : List Bound} {t : STy} {tr : Str} (h : ¬ Holds w Γ t tr)
    (x : Option (Out (List α))) : autoImplIn w Γ t tr x = .ok [] := if_neg h

/-- Where the type has the trait iff there is something to compute, it does not matter how one asks. -/
theorem autoImplIn_iff {w : Traits} {Γ : List Bound} {t : STy} {tr : Str} {x : Option (Out (List α))}
    (h : x.isSome = true → Holds w Γ t tr) : autoImplIn w Γ t tr x = autoImpl x := by
  by_cases hh : Holds w Γ t tr
  · exact if_pos hh
  · rw [autoImplIn_neg hh]
    cases x with
    | none => rfl
    | some _ => exact absurd (h rfl) hh

/-- **C81.** For a type without parameters the values are those of C20. -/
theorem C81_values {w : Traits} (hw : WithRuntime w) (hs : SupersHold w) {Γ : List Bound} {θ : Str → STy}
    (hθ : Satisfies w Γ θ) {t : STy} (ht : NoParams t) {c : Caps α} (hc : Offers w t c) : autoIn w Γ t c = auto c := by
  have e : ∀ tr, Holds w Γ t tr ↔ Holds w [] t tr := C81_complete hs hθ ht
  obtain ⟨r1, r2, r3⟩ := C81_rows hw Γ t
  have h1 : autoImplIn w Γ t tBounded (c.bounded.map fun b => Out.ok [b.1, b.2]) = _ :=
    autoImplIn_iff fun h => (e _).mpr (hc.bounded.mp (by simpa using h))
  have h2 : autoImplIn w Γ t tDefault (c.default_.map fun d => Out.ok [d]) = _ :=
    autoImplIn_iff fun h => (e _).mpr (hc.default_.mp (by simpa using h))
  have h3 : autoImplIn w Γ t tMaxValueSubOne ((maxValueSubOne c).map fun x => do let x ← x; Out.ok [x]) = _ :=
    autoImplIn_iff fun h => by
      rw [Option.isSome_map] at h
      unfold maxValueSubOne at h
      split at h
      · rename_i q1 q2 q3
        exact r2.mpr (.inr ⟨(e _).mpr (hc.bounded.mp (by rw [q2]; rfl)), (e _).mpr (hc.sub.mp (by rw [q1]; rfl)),
          (e _).mpr (hc.one.mp (by rw [q3]; rfl))⟩)
      · cases h
  have h4 : autoImplIn w Γ t tMiddle (middle c) = _ :=
    autoImplIn_iff fun h => by
      unfold middle at h
      split at h
      · rename_i q1 q2 q3 q4 q5
        exact r3.mpr (.inr ⟨(e _).mpr (hc.bounded.mp (by rw [q3]; rfl)), (e _).mpr (hc.add.mp (by rw [q1]; rfl)),
          (e _).mpr (hc.div.mp (by rw [q2]; rfl)), (e _).mpr (hc.one.mp (by rw [q4]; rfl))⟩)
      · cases h
  have h5 : autoImplIn w Γ t tMinValueAddOne ((minValueAddOne c).map fun x => do let x ← x; Out.ok [x]) = _ :=
    autoImplIn_iff fun h => by
      rw [Option.isSome_map] at h
      unfold minValueAddOne at h
      split at h
      · rename_i q1 q2 q3
        exact r1.mpr (.inr ⟨(e _).mpr (hc.bounded.mp (by rw [q2]; rfl)), (e _).mpr (hc.add.mp (by rw [q1]; rfl)),
          (e _).mpr (hc.one.mp (by rw [q3]; rfl))⟩)
      · cases h
  unfold autoIn auto
  rw [h1, h2, h3, h4, h5]

theorem out_ok_bind_inv {β γ : Type} {x : Out β} {f : β → Out γ} {r : γ} (h : (x >>= f) = .ok r) :
    ∃ a, x = .ok a ∧ f a = .ok r := by
  cases x with
  | ok a => exact ⟨a, rfl, h⟩
  | _ => cases h

theorem autoImplIn_sublist {w : Traits} {Γ : List Bound} {t : STy} {tr : Str} {x : Option (Out (List α))} {l : List α}
    (h : autoImpl x = .ok l) : ∃ l', autoImplIn w Γ t tr x = .ok l' ∧ l'.Sublist l := by
  by_cases hh : Holds w Γ t tr
  · exact ⟨l, (autoImplIn_pos hh x).trans h, List.Sublist.refl _⟩
  · exact ⟨[], autoImplIn_neg hh x, List.nil_sublist _⟩

/-- **C81.** For a type with parameters they are some of those of the type that it stands for, in the same order. -/
theorem C81_fewer (w : Traits) (Γ : List Bound) (t : STy) {c : Caps α} {l : List α} (h : auto c = .ok l) :
    ∃ l', autoIn w Γ t c = .ok l' ∧ l'.Sublist l := by
  unfold auto at h
  obtain ⟨l1, h1, h⟩ := out_ok_bind_inv h
  obtain ⟨l2, h2, h⟩ := out_ok_bind_inv h
  obtain ⟨l3, h3, h⟩ := out_ok_bind_inv h
  obtain ⟨l4, h4, h⟩ := out_ok_bind_inv h
  obtain ⟨l5, h5, h⟩ := out_ok_bind_inv h
  cases h
  obtain ⟨k1, e1, s1⟩ := autoImplIn_sublist (w := w) (Γ := Γ) (t := t) (tr := tBounded) h1
  obtain ⟨k2, e2, s2⟩ := autoImplIn_sublist (w := w) (Γ := Γ) (t := t) (tr := tDefault) h2
  obtain ⟨k3, e3, s3⟩ := autoImplIn_sublist (w := w) (Γ := Γ) (t := t) (tr := tMaxValueSubOne) h3
  obtain ⟨k4, e4, s4⟩ := autoImplIn_sublist (w := w) (Γ := Γ) (t := t) (tr := tMiddle) h4
  obtain ⟨k5, e5, s5⟩ := autoImplIn_sublist (w := w) (Γ := Γ) (t := t) (tr := tMinValueAddOne) h5
  refine ⟨k1 ++ k2 ++ k3 ++ k4 ++ k5, ?_, (((s1.append s2).append s3).append s4).append s5⟩
  unfold autoIn
  rw [e1, Out.ok_bind, e2, Out.ok_bind, e3, Out.ok_bind, e4, Out.ok_bind, e5, Out.ok_bind]

/-- The bounds of a target say nothing about values of a type. -/
def NoValueBounds (w : Traits) (Γ : List Bound) (t : STy) : Prop :=
  ∀ tr ∈ [tBounded, tDefault, tMaxValueSubOne, tMiddle, tMinValueAddOne], ¬ Assumed w Γ t tr

theorem no_computed {w : Traits} (hw : WithRuntime w) {Γ : List Bound} {t : STy} (hb : ¬ Holds w Γ t tBounded)
    (hm : ∀ tr ∈ [tMaxValueSubOne, tMiddle, tMinValueAddOne], ¬ Assumed w Γ t tr) :
    ¬ Holds w Γ t tMaxValueSubOne ∧ ¬ Holds w Γ t tMiddle ∧ ¬ Holds w Γ t tMinValueAddOne := by
  obtain ⟨r1, r2, r3⟩ := C81_rows hw Γ t
  refine ⟨fun h => ?_, fun h => ?_, fun h => ?_⟩
  · rcases r2.mp h with h | h
    · exact hm _ (by simp) h
    · exact hb h.1
  · rcases r3.mp h with h | h
    · exact hm _ (by simp) h
    · exact hb h.1
  · rcases r1.mp h with h | h
    · exact hm _ (by simp) h
    · exact hb h.1

/-- **C81.** There are none for a parameter without such bounds, whatever it stands for. -/
theorem C81_no_values {w : Traits} (hw : WithRuntime w) (h1 : NotForAll w tBounded) (h2 : NotForAll w tDefault)
    {Γ : List Bound} {n : Str} (hn : NoValueBounds w Γ (.param n)) (c : Caps α) : autoIn w Γ (.param n) c = .ok [] := by
  have hb : ¬ Holds w Γ (.param n) tBounded := fun h => hn _ (by simp) ((C81_parameter h1 Γ n).mp h)
  have hd : ¬ Holds w Γ (.param n) tDefault := fun h => hn _ (by simp) ((C81_parameter h2 Γ n).mp h)
  obtain ⟨a, b, d⟩ := no_computed hw hb fun tr htr => hn tr (by
    simp only [List.mem_cons, List.not_mem_nil, or_false] at htr ⊢
    rcases htr with h | h | h <;> simp [h])
  unfold autoIn
  rw [autoImplIn_neg hb, autoImplIn_neg hd, autoImplIn_neg a, autoImplIn_neg b, autoImplIn_neg d]
  rfl

theorem autosIn_mem {w : Traits} {Γ : List Bound} {fields : List (STy × Caps α)} {autos : List (List α)}
    (h : autosIn w Γ fields = .ok autos) {f : STy × Caps α} (hf : f ∈ fields) {l : List α} (hl : autoIn w Γ f.1 f.2 = .ok l) :
    l ∈ autos := by
  induction fields generalizing autos with
  | nil => cases hf
  | cons g fields ih =>
    obtain ⟨t, c⟩ := g
    simp only [autosIn] at h
    obtain ⟨x, hx, h⟩ := out_ok_bind_inv h
    obtain ⟨xs, hxs, h⟩ := out_ok_bind_inv h
    cases h
    rcases List.mem_cons.mp hf with rfl | hf
    · rw [hx] at hl
      cases hl
      exact List.mem_cons_self
    · exact List.mem_cons_of_mem _ (ih hxs hf)

/-- **C81.** A generic target with an argument of such a type gets no corpus, even if each of the types has values that it is used
with. -/
theorem C81_no_corpus {w : Traits} (hw : WithRuntime w) (h1 : NotForAll w tBounded) (h2 : NotForAll w tDefault)
    {impl_ fn_ : BGenerics} {n : Str} (hn : NoValueBounds w (impl_.combine fn_).bounds (.param n))
    {fields : List (STy × Caps α)} {c : Caps α} (hf : (.param n, c) ∈ fields) (ho : ∀ f ∈ fields, ∃ l, auto f.2 = .ok l) :
    autoGeneratedIn w impl_ fn_ fields = .ok [] := by
  have hok : ∃ autos, autosIn w (impl_.combine fn_).bounds fields = .ok autos := by
    clear hf
    induction fields with
    | nil => exact ⟨[], rfl⟩
    | cons g fields ih =>
      obtain ⟨t, c⟩ := g
      obtain ⟨l, hl⟩ := ho _ List.mem_cons_self
      obtain ⟨l', hl', -⟩ := C81_fewer w (impl_.combine fn_).bounds t hl
      obtain ⟨as, has⟩ := ih fun f hf => ho f (List.mem_cons_of_mem _ hf)
      refine ⟨l' :: as, ?_⟩
      simp only [autosIn]
      rw [hl', Out.ok_bind, has, Out.ok_bind]
  obtain ⟨autos, ha⟩ := hok
  have hm := autosIn_mem ha hf (C81_no_values hw h1 h2 hn c)
  unfold autoGeneratedIn
  rw [ha, Out.ok_bind]
  exact C19_none autos hm

/-- **C81.** The phantom fields have one value each, so that they do not get in the way. -/
theorem C81_phantom {w : Traits} (hw : WithRuntime w)
    (hp : (⟨phantomOf (.param c%"T"), tDefault, []⟩ : ImplRule) ∈ w.impls) {Γ : List Bound} {t : STy}
    (hb : ¬ Holds w Γ (phantomOf t) tBounded) (hm : NoValueBounds w Γ (phantomOf t)) {c : Caps α} {d : α}
    (hd : c.default_ = some d) : autoIn w Γ (phantomOf t) c = .ok [d] := by
  obtain ⟨x, y, z⟩ := no_computed hw hb fun tr htr => hm tr (by
    simp only [List.mem_cons, List.not_mem_nil, or_false] at htr ⊢
    rcases htr with h | h | h <;> simp [h])
  have hdef : Holds w Γ (phantomOf t) tDefault :=
    Holds.impl (w := w) (Γ := Γ) _ (fun _ => t) hp (by intro c hc; cases hc)
  unfold autoIn
  rw [autoImplIn_neg hb, autoImplIn_pos hdef, autoImplIn_neg x, autoImplIn_neg y, autoImplIn_neg z, hd]
  rfl

end

/-! ## An example -/

namespace TraitsDemo

def u8 : STy := .con c%"u8"
def vec (t : STy) : STy := .app (.con c%"alloc::vec::Vec") t
def tMul : Str := c%"core::ops::Mul<Output = Self>"

/-- `u8`, `Vec` and `PhantomData`. -/
def w : Traits where
  impls := runtimeImpls ++
    [tDebug, tDefault, tBounded, tOne, tAdd, tSub, tDiv, tMul].map (fun tr => ⟨u8, tr, []⟩) ++
    [⟨vec (.param c%"T"), tDebug, [(.param c%"T", tDebug)]⟩, ⟨vec (.param c%"T"), tDefault, []⟩,
      ⟨phantomOf (.param c%"T"), tDefault, []⟩]
  supers tr := if tr = tOne then [tMul] else []
  defs := []

theorem supersHold : SupersHold w := by
  intro Γ t tr tr' h hs
  by_cases ho : tr = tOne
  · subst ho
    have e : tr' = tMul := by simpa [w] using hs
    subst e
    rcases holds_inv h with h | ⟨r, hr, σ, rfl, he, -⟩
    · exact .assumed (.super h hs)
    · have key : ∀ r ∈ w.impls, r.trait = tOne → r.pat = u8 := by
        have : ∀ r ∈ w.impls, (decide (r.trait = tOne) && !decide (r.pat = u8)) = false := by decide +kernel
        intro r hr hh
        have := this r hr
        simpa [hh] using this
      rw [key r hr he.symm]
      exact Holds.impl (w := w) (Γ := Γ) ⟨u8, tMul, []⟩ σ (by simp [w]) (by simp)
  · simp [w, ho] at hs

theorem withRuntime : WithRuntime w := by
  constructor
  · intro r hr
    simp only [w, List.append_assoc]
    exact List.mem_append_left _ hr
  · intro r hr ht
    simp only [w, List.append_assoc] at hr
    rcases List.mem_append.mp hr with h | h
    · exact h
    · exfalso
      revert ht
      have : ∀ r ∈ List.map (fun tr => (⟨u8, tr, []⟩ : ImplRule)) [tDebug, tDefault, tBounded, tOne, tAdd, tSub, tDiv, tMul] ++
          [⟨vec (.param c%"T"), tDebug, [(.param c%"T", tDebug)]⟩, ⟨vec (.param c%"T"), tDefault, []⟩,
            ⟨phantomOf (.param c%"T"), tDefault, []⟩], r.trait ∉ [tMinValueAddOne, tMaxValueSubOne, tTwo, tMiddle] := by
        decide +kernel
      exact this r h

theorem notForAll {tr : Str} (h : tr ∈ [tDebug, tDefault, tBounded]) : NotForAll w tr := by
  intro r hr ht n hp
  have key : ∀ r ∈ w.impls, r.trait ∈ [tDebug, tDefault, tBounded] → ∀ n, r.pat ≠ .param n := by
    have : ∀ r ∈ w.impls, r.trait ∈ [tDebug, tDefault, tBounded] →
        (match r.pat with | .param _ => true | _ => false) = false := by decide +kernel
    intro r hr hh n hp
    have := this r hr hh
    rw [hp] at this
    cases this
  exact key r hr (ht ▸ h) n hp

/-- `fn f<T: One>(x: T, y: Vec<u8>)`, used with `u8`. -/
def fn_ : BGenerics := ⟨[(.ty c%"T", [tOne])], []⟩
def impl_ : BGenerics := ⟨[], []⟩
def θ : Str → STy := fun _ => u8

/-- Non-vacuity of `C81_stated`: a bound in the where clause of the impl. -/
example (field name : Str) (d : Dbg) :
    argsShown w ⟨[(.ty c%"T", [])], [(.param c%"T", tDebug)]⟩ ⟨[], []⟩ [(field, .param c%"T", name, d)] =
      [(field, .debug d)] :=
  (C81_stated (notForAll (by simp)) _ _ _ _ _ _).mpr ⟨tDebug, ⟨_, .inl rfl, .inr (by simp)⟩, .self _⟩

theorem u8_has {tr : Str} (h : tr ∈ [tDebug, tDefault, tBounded, tOne, tAdd, tSub, tDiv, tMul]) (Γ : List Bound) :
    Holds w Γ u8 tr := by
  have hm : (⟨u8, tr, []⟩ : ImplRule) ∈ w.impls := by
    simp only [w, List.append_assoc]
    exact List.mem_append_right _ (List.mem_append_left _ (List.mem_map.mpr ⟨tr, h, rfl⟩))
  exact Holds.impl (w := w) (Γ := Γ) ⟨u8, tr, []⟩ θ hm (by simp)

theorem satisfies : Satisfies w (impl_.combine fn_).bounds θ := by
  intro b hb
  have : b = (.param c%"T", tOne) := by simpa [BGenerics.combine, impl_, fn_, BGenerics.bounds, paramBounds] using hb
  subst this
  exact u8_has (by simp) []

theorem assumed_iff {t : STy} {tr : Str} (h : Assumed w (impl_.combine fn_).bounds t tr) : tr = tOne ∨ tr = tMul := by
  induction h with
  | here h =>
    left
    simpa [BGenerics.combine, impl_, fn_, BGenerics.bounds, paramBounds] using congrArg Prod.snd
      (show (_, _) = (STy.param c%"T", tOne) by
        simpa [BGenerics.combine, impl_, fn_, BGenerics.bounds, paramBounds] using h)
  | super _ h ih =>
    rcases ih with rfl | rfl
    · right
      simpa [w] using h
    · simp [w, show tMul ≠ tOne by decide] at h

/-- The argument is not shown though `u8` has a `Debug`; a result would be. -/
example (d : Dbg) : argsShown w impl_ fn_ [(c%"x", .param c%"T", c%"u8", d)] = [(c%"x", .unknown c%"u8")] ∧
    retShown w θ (.param c%"T") c%"u8" d = .debug d :=
  C81_hidden (notForAll (by simp)) impl_ fn_ c%"T"
    (fun h => by rcases assumed_iff h with h | h <;> revert h <;> decide) θ (u8_has (by simp) []) c%"x" c%"u8" d

/-- `Vec<u8>` is shown. -/
example (d : Dbg) : tryDebug w (impl_.combine fn_).bounds (vec u8) c%"" d = .debug d :=
  if_pos (Holds.impl (w := w) ⟨vec (.param c%"T"), tDebug, [(.param c%"T", tDebug)]⟩ θ (by simp [w])
    (by intro c hc; simp only [List.mem_singleton] at hc; subst hc; exact u8_has (by simp) _))

theorem noValueBounds (t : STy) : NoValueBounds w (impl_.combine fn_).bounds t := by
  intro tr htr h
  rcases assumed_iff h with rfl | rfl <;> revert htr <;> decide

/-- Nothing is generated for the target, but there would be seven values for `u8`. -/
example : autoGeneratedIn w impl_ fn_ [(.param c%"T", intCaps false 8), (phantomOf (.param c%"T"), ⟨none, some 0, none, none,
    none, none⟩)] = .ok [] ∧ auto (intCaps false 8) = .ok [0, 255, 0, 254, 127, 128, 1] := by
  refine ⟨C81_no_corpus withRuntime (notForAll (by simp)) (notForAll (by simp)) (noValueBounds _) List.mem_cons_self ?_,
    by decide +kernel⟩
  intro f hf
  simp only [List.mem_cons, List.not_mem_nil, or_false] at hf
  rcases hf with rfl | rfl
  · exact ⟨[0, 255, 0, 254, 127, 128, 1], by decide +kernel⟩
  · exact ⟨[0], rfl⟩

theorem u8_offers : Offers w u8 (intCaps false 8) where
  bounded := ⟨fun _ => u8_has (by simp) [], fun _ => rfl⟩
  default_ := ⟨fun _ => u8_has (by simp) [], fun _ => rfl⟩
  one := ⟨fun _ => u8_has (by simp) [], fun _ => rfl⟩
  add := ⟨fun _ => u8_has (by simp) [], fun _ => rfl⟩
  sub := ⟨fun _ => u8_has (by simp) [], fun _ => rfl⟩
  div := ⟨fun _ => u8_has (by simp) [], fun _ => rfl⟩

/-- C81_rows_named: nothing is assumed without bounds, and `u8` has what is needed. -/
example : Holds w [] u8 c%"test_fuzz_runtime::traits::Middle" :=
  (C81_rows_named withRuntime [] u8 fun _ h => by induction h with | here h => cases h | super _ _ ih => exact ih).2.2.mpr
    ⟨u8_has (tr := tBounded) (by simp) [], u8_has (tr := tAdd) (by simp) [], u8_has (tr := tDiv) (by simp) [], u8_has (tr := tOne) (by simp) []⟩

/-- For an argument of type `u8` they are generated, in spite of the bounds. -/
example : autoIn w (impl_.combine fn_).bounds u8 (intCaps false 8) = .ok [0, 255, 0, 254, 127, 128, 1] := by
  rw [C81_values withRuntime supersHold satisfies (by trivial) u8_offers]
  decide +kernel

theorem phantom_unbounded (Γ : List Bound) (hΓ : ∀ t, ¬ Assumed w Γ t tBounded) (t : STy) :
    ¬ Holds w Γ (phantomOf t) tBounded := by
  intro h
  rcases holds_inv h with h | ⟨r, hr, σ, he, ht, -⟩
  · exact hΓ _ h
  · have key : ∀ r ∈ w.impls, r.trait = tBounded → r.pat = u8 := by
      have : ∀ r ∈ w.impls, (decide (r.trait = tBounded) && !decide (r.pat = u8)) = false := by decide +kernel
      intro r hr hh
      have := this r hr
      simpa [hh] using this
    rw [key r hr ht.symm] at he
    cases he

/-- The field for the parameter has one value. -/
example : autoIn w (impl_.combine fn_).bounds (phantomOf (.param c%"T")) (⟨none, some 0, none, none, none, none⟩ : Caps Nat) =
    .ok [0] :=
  C81_phantom withRuntime (by simp [w]) (phantom_unbounded _ (fun t => noValueBounds t _ (by simp)) _) (noValueBounds _) rfl

end TraitsDemo

end TF
