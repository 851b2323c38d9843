import Verif.Spec.Bounds
import Verif.Props.Traits

/-! # Which bounds targets need: C82 -/

namespace TF

open Spec

/-- What is known is known with more. -/
theorem holds_cut {w : Traits} (hw : SupersHold w) {Γ Δ : List Bound} (hΔ : ∀ b ∈ Δ, Holds w Γ b.1 b.2) {t : STy} {tr : Str}
    (h : Holds w Δ t tr) : Holds w Γ t tr := by
  induction h with
  | assumed h =>
    induction h with
    | here h => exact hΔ _ h
    | super _ h ih => exact hw _ _ _ _ ih h
  | impl r σ hr _ ih => exact .impl r σ hr ih

theorem rootParam_iff (n : Str) (t : STy) : rootParam t = some n ↔ RootedAt n t := by
  induction t with
  | param m => simp [rootParam, RootedAt]
  | con m => simp [rootParam, RootedAt]
  | app f a _ _ => simp [rootParam, RootedAt]
  | assoc t m ht => simpa only [rootParam, RootedAt] using ht

theorem assocUse_iff (params : List Str) (t : STy) : assocUse params t = true ↔ Projects params t := by
  unfold assocUse Projects
  split
  · next s a =>
    split
    · next n h =>
      rw [List.contains_iff_mem]
      constructor
      · exact fun hn => ⟨s, a, n, rfl, (rootParam_iff n s).mp h, hn⟩
      · rintro ⟨_, _, m, he, hm, hn⟩
        cases he
        rw [← rootParam_iff, h] at hm
        cases hm
        exact hn
    · next h =>
      refine ⟨fun h => (nomatch h), ?_⟩
      rintro ⟨_, _, m, he, hm, hn⟩
      cases he
      rw [← rootParam_iff, h] at hm
      cases hm
  · next h =>
    refine ⟨fun h => (nomatch h), ?_⟩
    rintro ⟨s, a, m, he, hm, hn⟩
    exact absurd he (h s a)

theorem mem_typeIdents (l : List (GParam × List Str)) (n : Str) : n ∈ typeIdents (l.map (·.1)) ↔ ∃ bs, (.ty n, bs) ∈ l := by
  induction l with
  | nil => simp [typeIdents]
  | cons p l ih => obtain ⟨g, bs⟩ := p; cases g <;> simp [typeIdents, ih, exists_or]

theorem occurs_iff (n : Str) (t : STy) : relevantTo n t = true ↔ Occurs n t := by
  induction t with
  | param m => simp [relevantTo, Occurs]
  | con m => simp [relevantTo, Occurs]
  | app f a hf ha =>
    simp only [relevantTo, Occurs]
    split
    · simp_all
    · simp_all
  | assoc t m ht =>
    simp only [relevantTo, Occurs]
    cases h : rootParam t with
    | none =>
      have : ∀ m, ¬ RootedAt m t := fun m hm => by rw [← rootParam_iff, h] at hm; cases hm
      simpa [this] using ht
    | some k =>
      have : ¬ ∀ m, ¬ RootedAt m t := fun hm => hm k ((rootParam_iff k t).mp h)
      simp [this]

theorem derivedBounds_param {params : List Str} {tr : Str} {fields : List STy} {n : Str} (hn : n ∈ params) {f : STy}
    (hf : f ∈ fields) (ho : Occurs n f) : (.param n, tr) ∈ derivedBounds params tr fields := by
  refine List.mem_append_left _ (List.mem_map.mpr ⟨n, List.mem_filter.mpr ⟨hn, ?_⟩, rfl⟩)
  exact List.any_eq_true.mpr ⟨f, hf, (occurs_iff n f).mpr ho⟩

section
variable {w : Traits} {g : GenTarget}

/-- **C82.** Type parameters, and what is known about them, come from the target as well as from its impl. -/
theorem C82_declared (g : GenTarget) (n : Str) (t : STy) (tr : Str) :
    (n ∈ g.params ↔ TypeParam g n) ∧ ((t, tr) ∈ g.known ↔ States g t tr) := by
  constructor
  · unfold GenTarget.params TypeParam
    rw [mem_typeIdents]
    simp [BGenerics.combine]
  · unfold GenTarget.known States BGenerics.bounds
    rw [List.mem_append, mem_paramBounds]
    simp [BGenerics.combine, and_comm]

/-- **C82.** README.md: "The target's arguments must be serializable for every instantiation of its type parameters." If the code
compiles they are, and can be cloned. -/
theorem C82_every (hw : SupersHold w) (h : Compiles w g) (θ : Str → STy) (hθ : Satisfies w g.known θ) :
    ∀ f ∈ g.fields, Holds w [] (f.subst θ) tSerialize ∧ Holds w [] (f.subst θ) tClone := by
  intro f hf
  have hf' : f ∈ g.allFields := List.mem_append_left _ hf
  exact ⟨C81_sound hw hθ (holds_cut hw h.writeArgs (h.deriveSer f hf')), C81_sound hw hθ (h.cloned f hf')⟩

/-- **C82.** "But the target's arguments are required to be deserializable only when the target is instantiated with `parameters`":
then they are. -/
theorem C82_given (hw : SupersHold w) (h : Compiles w g) : ∀ f ∈ g.fields, Holds w [] (f.subst g.args) tDeserialize := by
  intro f hf
  have hf' : f ∈ g.allFields := List.mem_append_left _ hf
  exact C81_sound (Γ := g.knownDe) hw h.entry (holds_cut hw h.readArgs (h.deriveDe f hf'))

/-- **C82.** A parameter that occurs in the type of an argument must have `Serialize` by the bounds of the target. -/
theorem C82_serialize_stated (hn : NotForAll w tSerialize) (h : Compiles w g) {n : Str} (hp : n ∈ g.params) {f : STy}
    (hf : f ∈ g.fields) (ho : Occurs n f) : Assumed w g.known (.param n) tSerialize :=
  (C81_parameter hn _ n).mp
    (h.writeArgs _ (List.mem_append_right _ (derivedBounds_param hp (List.mem_append_left _ hf) ho)))

/-- **C82.** What the option `bounds` says must follow from the bounds of the target: if types satisfy these, they satisfy those. -/
theorem C82_bounds_known (hw : SupersHold w) (h : Compiles w g) (θ : Str → STy) (hθ : Satisfies w g.known θ) :
    Satisfies w g.bounds θ := fun b hb => C81_sound hw hθ (h.used b hb)

theorem tyOk_defs {Γ : List Bound} {t : STy} (h : TyOk w Γ t) : DefsOk w Γ t := by
  cases t with
  | param n => exact h
  | con n => exact h
  | app f a => exact h.1
  | assoc t n => exact h.1

/-- **C82.** And it must say what the types of arguments need: for one of type `T::A`, that `T` has the trait that `A` is of. The
bounds of the target do not suffice: without the option such a target does not compile. -/
theorem C82_bounds_stated {tr a : Str} (hd : (.assoc (.param c%"T") a, [(.param c%"T", tr)]) ∈ w.defs)
    (h : Compiles w g) {n : Str} (hf : .assoc (.param n) a ∈ g.fields) :
    Holds w g.bounds (.param n) tr ∧ (¬ Holds w [] (.param n) tr → g.bounds ≠ []) := by
  have := tyOk_defs (h.structs _ (List.mem_append_left _ hf)) _ hd (fun _ => .param n) rfl _ (List.mem_singleton.mpr rfl)
  exact ⟨this, fun hn he => hn (he ▸ this)⟩

theorem phantom_has (hs : WithSerde w) {tr : Str} (h : tr ∈ [tClone, tSerialize, tDeserialize]) (Γ : List Bound) (t : STy) :
    Holds w Γ (phantomOf t) tr :=
  Holds.impl (w := w) (Γ := Γ) _ (fun _ => t) (hs.phantoms tr h) (by intro c hc; cases hc)

theorem phantom_ok (hs : WithSerde w) (Γ : List Bound) (n : Str) : TyOk w Γ (phantomOf (.param n)) := by
  refine ⟨fun d hd σ he => absurd he.symm (hs.noDefs d hd σ (.param n) n).1, fun d hd σ he => ?_, fun d hd σ he => ?_⟩
  · exact absurd he.symm (hs.noDefs d hd σ (.param n) n).2.2
  · exact absurd he.symm (hs.noDefs d hd σ (.param n) n).2.1

theorem phantom_irrelevant (n : Str) (t : STy) : relevantTo n (phantomOf t) = false := by
  simp [phantomOf, relevantTo]

theorem all_relevant (g : GenTarget) (n : Str) : g.allFields.any (relevantTo n) = g.fields.any (relevantTo n) := by
  unfold GenTarget.allFields
  rw [List.any_append]
  have : (g.params.map fun m => phantomOf (.param m)).any (relevantTo n) = false := by
    rw [List.any_eq_false]
    intro x hx
    obtain ⟨m, -, rfl⟩ := List.mem_map.mp hx
    simp [phantom_irrelevant]
  rw [this, Bool.or_false]

/-- Bounds that say that the parameters that occur in the types of the arguments have a trait. -/
def occurring (g : GenTarget) (tr : Str) : List Bound :=
  (g.params.filter fun n => g.fields.any (relevantTo n)).map fun n => (.param n, tr)

theorem mem_occurring {tr : Str} {b : Bound} : b ∈ occurring g tr ↔ ∃ n ∈ g.params, (∃ f ∈ g.fields, Occurs n f) ∧ b = (.param n, tr) := by
  unfold occurring
  simp only [List.mem_map, List.mem_filter, List.any_eq_true, occurs_iff]
  constructor
  · rintro ⟨n, ⟨hn, h⟩, rfl⟩
    exact ⟨n, hn, h, rfl⟩
  · rintro ⟨n, hn, h, rfl⟩
    exact ⟨n, ⟨hn, h⟩, rfl⟩

theorem derived_all (ha : ∀ f ∈ g.fields, ¬ Projects g.params f) (tr : Str) :
    derivedBounds g.params tr g.allFields = occurring g tr := by
  unfold derivedBounds occurring
  have h2 : g.allFields.filter (assocUse g.params) = [] := by
    rw [List.filter_eq_nil_iff]
    intro f hf
    rcases List.mem_append.mp hf with hf | hf
    · rw [assocUse_iff]
      exact ha f hf
    · obtain ⟨m, -, rfl⟩ := List.mem_map.mp hf
      simp [phantomOf, assocUse]
  rw [h2, List.map_nil, List.append_nil]
  congr 1
  exact List.filter_congr fun n _ => all_relevant g n

/-- **C82.** A target without `bounds`, whose arguments do not have types of the form `T::A`, compiles iff all of this is so: the
types of arguments can be written down without knowing anything about parameters; they can be cloned, by the bounds; parameters in
them are serializable, by the bounds; the types are serializable and deserializable if their parameters are; and the arguments
given satisfy the bounds and are deserializable. That parameters are deserializable need not be stated. -/
theorem C82_generic (hs : WithSerde w) (hb : g.bounds = []) (ha : ∀ f ∈ g.fields, ¬ Projects g.params f) :
    Compiles w g ↔
      (∀ f ∈ g.fields, TyOk w [] f) ∧ TyOk w g.known g.ret ∧ (∀ f ∈ g.fields, Holds w g.known f tClone) ∧
      (∀ n ∈ g.params, (∃ f ∈ g.fields, Occurs n f) → Holds w g.known (.param n) tSerialize) ∧
      (∀ f ∈ g.fields, Holds w (occurring g tSerialize) f tSerialize) ∧
      (∀ f ∈ g.fields, Holds w (occurring g tDeserialize) f tDeserialize) ∧
      Satisfies w g.known g.args ∧ ∀ n ∈ g.params, Holds w [] (g.args n) tDeserializeOwned := by
  have hf : ∀ f ∈ g.fields, f ∈ g.allFields := fun f h => List.mem_append_left _ h
  constructor
  · intro h
    refine ⟨fun f h' => hb ▸ h.structs f (hf f h'), h.result, fun f h' => h.cloned f (hf f h'), ?_, ?_, ?_, ?_, ?_⟩
    · intro n hn ho
      refine h.writeArgs (.param n, tSerialize) (List.mem_append_right _ ?_)
      rw [derived_all ha, mem_occurring]
      exact ⟨n, hn, ho, rfl⟩
    · intro f h'
      have := h.deriveSer f (hf f h')
      rwa [hb, List.nil_append, derived_all ha] at this
    · intro f h'
      have := h.deriveDe f (hf f h')
      rwa [hb, List.nil_append, derived_all ha] at this
    · exact fun b hb => h.entry b (List.mem_append_left _ hb)
    · intro n hn
      exact h.entry (.param n, tDeserializeOwned) (List.mem_append_right _ (List.mem_map.mpr ⟨n, hn, rfl⟩))
  · rintro ⟨h1, h2, h3, h4, h5, h6, h7, h8⟩
    have split : ∀ {P : STy → Prop}, (∀ f ∈ g.fields, P f) → (∀ n, P (phantomOf (.param n))) → ∀ f ∈ g.allFields, P f := by
      intro P p1 p2 f hf
      rcases List.mem_append.mp hf with hf | hf
      · exact p1 f hf
      · obtain ⟨m, -, rfl⟩ := List.mem_map.mp hf
        exact p2 m
    refine ⟨?_, ?_, ?_, ?_, ?_, ?_, ?_, h2, ?_⟩
    · rw [hb]
      exact split h1 (phantom_ok hs [])
    · rw [hb]
      intro b h
      cases h
    · exact split h3 fun n => phantom_has hs (by simp) _ _
    · rw [hb, List.nil_append, derived_all ha]
      exact split h5 fun n => phantom_has hs (by simp) _ _
    · rw [hb, List.nil_append, derived_all ha]
      intro b hb'
      obtain ⟨n, hn, ho, rfl⟩ := mem_occurring.mp hb'
      exact h4 n hn ho
    · rw [hb, List.nil_append, derived_all ha]
      exact split h6 fun n => phantom_has hs (by simp) _ _
    · rw [hb, List.nil_append, derived_all ha]
      intro b hb'
      obtain ⟨n, hn, -, rfl⟩ := mem_occurring.mp hb'
      exact .assumed (.super (.here (List.mem_append_right _ (List.mem_map.mpr ⟨n, hn, rfl⟩))) hs.owned)
    · intro b hb'
      rcases List.mem_append.mp hb' with hb' | hb'
      · exact h7 b hb'
      · obtain ⟨n, hn, rfl⟩ := List.mem_map.mp hb'
        exact h8 n hn

/-- **C82.** A target that is not generic compiles iff its arguments are `Clone`, `Serialize` and `Deserialize`, as README.md says
under "Limitations". -/
theorem C82_plain (hs : WithSerde w) (hb : g.bounds = []) (hp : g.params = []) (hk : g.known = [])
    (ht : ∀ f ∈ g.fields, TyOk w [] f) (hr : TyOk w [] g.ret) :
    Compiles w g ↔ ∀ f ∈ g.fields, Holds w [] f tClone ∧ Holds w [] f tSerialize ∧ Holds w [] f tDeserialize := by
  have ha : ∀ f ∈ g.fields, ¬ Projects g.params f := by
    rintro f - ⟨_, _, n, -, -, hn⟩
    rw [hp] at hn
    cases hn
  have ho : ∀ tr, occurring g tr = [] := by intro tr; simp [occurring, hp]
  rw [C82_generic hs hb ha, hk, ho, ho, hp]
  constructor
  · rintro ⟨-, -, h3, -, h5, h6, -⟩ f hf
    exact ⟨h3 f hf, h5 f hf, h6 f hf⟩
  · intro h
    exact ⟨ht, hr, fun f hf => (h f hf).1, by simp, fun f hf => (h f hf).2.1, fun f hf => (h f hf).2.2, by simp [Satisfies],
      by simp⟩

/-- **C82.** If the types of the arguments are parameters, each of them must have `Clone` and `Serialize` by the bounds of the
target, and that is all: `Deserialize` is asked of what is given for them only. -/
theorem C82_parameters (hs : WithSerde w) (hb : g.bounds = []) (hr : TyOk w g.known g.ret) (ns : List Str)
    (hf : g.fields = ns.map .param) (hn : ∀ n ∈ ns, n ∈ g.params) (h1 : NotForAll w tClone) (h2 : NotForAll w tSerialize) :
    Compiles w g ↔
      (∀ n ∈ ns, Assumed w g.known (.param n) tClone ∧ Assumed w g.known (.param n) tSerialize) ∧
      Satisfies w g.known g.args ∧ ∀ n ∈ g.params, Holds w [] (g.args n) tDeserializeOwned := by
  have ha : ∀ f ∈ g.fields, ¬ Projects g.params f := by
    rw [hf]
    intro f hm
    obtain ⟨m, -, rfl⟩ := List.mem_map.mp hm
    rintro ⟨_, _, _, he, -⟩
    cases he
  have hocc : ∀ n ∈ ns, ∃ f ∈ g.fields, Occurs n f := fun n h =>
    ⟨.param n, by rw [hf]; exact List.mem_map.mpr ⟨n, h, rfl⟩, rfl⟩
  rw [C82_generic hs hb ha]
  constructor
  · rintro ⟨-, -, h3, h4, -, -, h7, h8⟩
    refine ⟨fun n h => ⟨?_, ?_⟩, h7, h8⟩
    · exact (C81_parameter h1 _ n).mp (h3 _ (by rw [hf]; exact List.mem_map.mpr ⟨n, h, rfl⟩))
    · exact (C81_parameter h2 _ n).mp (h4 n (hn n h) (hocc n h))
  · rintro ⟨h, h7, h8⟩
    refine ⟨?_, hr, ?_, ?_, ?_, ?_, h7, h8⟩
    · rw [hf]
      intro f hm
      obtain ⟨m, -, rfl⟩ := List.mem_map.mp hm
      exact fun d hd σ he => absurd he.symm (hs.noDefs d hd σ (.param m) m).2.1
    · rw [hf]
      intro f hm
      obtain ⟨m, hm', rfl⟩ := List.mem_map.mp hm
      exact .assumed (h m hm').1
    · rintro n - ⟨f, hm, ho⟩
      rw [hf] at hm
      obtain ⟨m, hm', rfl⟩ := List.mem_map.mp hm
      have ho : m = n := ho
      exact ho ▸ .assumed (h m hm').2
    · intro f hm
      have hm' := hm
      rw [hf] at hm'
      obtain ⟨m, hk, rfl⟩ := List.mem_map.mp hm'
      exact .assumed (.here (mem_occurring.mpr ⟨m, hn m hk, hocc m hk, rfl⟩))
    · intro f hm
      have hm' := hm
      rw [hf] at hm'
      obtain ⟨m, hk, rfl⟩ := List.mem_map.mp hm'
      exact .assumed (.here (mem_occurring.mpr ⟨m, hn m hk, hocc m hk, rfl⟩))

end

/-! ## Examples -/

namespace BoundsDemo

def u8 : STy := .con c%"u8"
def T : STy := .param c%"T"
def out : Str := c%"Out"
def tSerializable : Str := c%"Serializable"

/-- fuzzable/tests/associated_type.rs: `u8` stands for `Address`; `Serializable` is implemented for all types that are `Serialize`,
and `Serializable::Out` has bounds of its own. -/
def w : Traits where
  impls := [tClone, tSerialize, tDeserialize].map (fun tr => ⟨phantomOf T, tr, []⟩) ++
    [tClone, tSerialize, tDeserialize, tDeserializeOwned].map (fun tr => ⟨u8, tr, []⟩) ++
    [tClone, tSerialize, tDeserialize].map (fun tr => ⟨.assoc T out, tr, [(T, tSerializable)]⟩) ++
    [⟨T, tSerializable, [(T, tSerialize)]⟩]
  supers tr := if tr = tDeserializeOwned then [tDeserialize] else []
  defs := [(.assoc T out, [(T, tSerializable)])]

theorem u8_has {tr : Str} (h : tr ∈ [tClone, tSerialize, tDeserialize, tDeserializeOwned]) (Γ : List Bound) : Holds w Γ u8 tr := by
  have hm : (⟨u8, tr, []⟩ : ImplRule) ∈ w.impls := by
    simp only [w, List.append_assoc]
    exact List.mem_append_right _ (List.mem_append_left _ (List.mem_map.mpr ⟨tr, h, rfl⟩))
  exact Holds.impl (w := w) (Γ := Γ) ⟨u8, tr, []⟩ (fun _ => u8) hm (by simp)

theorem supersHold : SupersHold w := by
  intro Γ t tr tr' h hs
  by_cases ho : tr = tDeserializeOwned
  · subst ho
    have e : tr' = tDeserialize := by simpa [w] using hs
    subst e
    rcases holds_inv h with h | ⟨r, hr, σ, rfl, he, -⟩
    · exact .assumed (.super h hs)
    · have key : ∀ r ∈ w.impls, r.trait = tDeserializeOwned → r.pat = u8 := by
        have : ∀ r ∈ w.impls, (decide (r.trait = tDeserializeOwned) && !decide (r.pat = u8)) = false := by decide +kernel
        intro r hr hh
        simpa [hh] using this r hr
      rw [key r hr he.symm]
      exact u8_has (by simp) Γ
  · simp [w, ho] at hs

theorem withSerde : WithSerde w where
  phantoms tr h := by
    simp only [w, List.append_assoc]
    exact List.mem_append_left _ (List.mem_map.mpr ⟨tr, h, rfl⟩)
  owned := by simp [w]
  noDefs := by
    intro d hd σ t n
    have : d = (.assoc T out, [(T, tSerializable)]) := by simpa [w] using hd
    subst this
    exact ⟨(nomatch ·), (nomatch ·), (nomatch ·)⟩

theorem notForAll {tr : Str} (h : tr ∈ [tClone, tSerialize]) : NotForAll w tr := by
  intro r hr ht n hp
  have : ∀ r ∈ w.impls, r.trait ∈ [tClone, tSerialize] → (match r.pat with | .param _ => true | _ => false) = false := by
    decide +kernel
  have := this r hr (ht ▸ h)
  rw [hp] at this
  cases this

/-- `fn f<T: Clone + Serialize>(x: T)`, with `generic_args = "u8"`. -/
def f : GenTarget := ⟨⟨[], []⟩, ⟨[(.ty c%"T", [tClone, tSerialize])], []⟩, [], [T], u8, fun _ => u8⟩

theorem u8_ok (Γ : List Bound) : TyOk w Γ u8 := by
  intro d hd σ he
  have : d = (.assoc T out, [(T, tSerializable)]) := by simpa [w] using hd
  subst this
  cases he

/-- `impl<T: Serialize> .. { fn f<U>() where U: Clone }` -/
example : States ⟨⟨[(.ty c%"T", [tSerialize])], []⟩, ⟨[(.ty c%"U", [])], [(.param c%"U", tClone)]⟩, [], [], u8, fun _ => u8⟩ T tSerialize ∧
    States ⟨⟨[(.ty c%"T", [tSerialize])], []⟩, ⟨[(.ty c%"U", [])], [(.param c%"U", tClone)]⟩, [], [], u8, fun _ => u8⟩ (.param c%"U") tClone :=
  ⟨.inl ⟨_, _, rfl, List.mem_singleton.mpr rfl, .inl (List.mem_singleton.mpr rfl)⟩, .inr (.inr (List.mem_singleton.mpr rfl))⟩

/-- It compiles. -/
theorem f_compiles : Compiles w f := by
  rw [C82_parameters withSerde rfl (u8_ok _) [c%"T"] rfl (by decide) (notForAll (by simp)) (notForAll (by simp))]
  refine ⟨fun n hn => ?_, fun b hb => ?_, fun n hn => u8_has (by simp) []⟩
  · obtain rfl := List.mem_singleton.mp hn
    exact ⟨.here (by decide), .here (by decide)⟩
  · have : b = (T, tClone) ∨ b = (T, tSerialize) := by
      simpa [GenTarget.known, f, BGenerics.combine, BGenerics.bounds, paramBounds, T] using hb
    rcases this with rfl | rfl <;> exact u8_has (by simp) []

/-- Without `Serialize` it would not. -/
example : ¬ Compiles w { f with fn_ := ⟨[(.ty c%"T", [tClone])], []⟩ } := by
  intro h
  have ha := C82_serialize_stated (notForAll (by simp)) h (n := c%"T") (by decide) (List.mem_cons_self) rfl
  have key : ∀ t tr, Assumed w [(T, tClone)] t tr → tr = tClone := by
    intro t tr h
    induction h with
    | here h => exact congrArg Prod.snd (List.mem_singleton.mp h)
    | super _ h ih =>
      subst ih
      simp [w, show tClone ≠ tDeserializeOwned by decide] at h
  have := key _ _ ha
  revert this
  decide

/-- `fn serializes_to<T>(x: &T, y: &T::Out) -> bool where T: Clone + DeserializeOwned + Serialize + Serializable`, with
`generic_args = "Address", bounds = "T: Serializable"`. -/
def g : GenTarget :=
  ⟨⟨[], []⟩, ⟨[(.ty c%"T", [])], [(T, tClone), (T, tDeserializeOwned), (T, tSerialize), (T, tSerializable)]⟩, [(T, tSerializable)],
    [T, .assoc T out], u8, fun _ => u8⟩

theorem assoc_has {tr : Str} (h : tr ∈ [tClone, tSerialize, tDeserialize]) {Γ : List Bound} (hΓ : (T, tSerializable) ∈ Γ) :
    Holds w Γ (.assoc T out) tr := by
  have hm : (⟨.assoc T out, tr, [(T, tSerializable)]⟩ : ImplRule) ∈ w.impls := by
    simp only [w, List.append_assoc]
    exact List.mem_append_right _ (List.mem_append_right _ (List.mem_append_left _ (List.mem_map.mpr ⟨tr, h, rfl⟩)))
  exact Holds.impl (w := w) (Γ := Γ) _ .param hm (by
    intro c hc
    obtain rfl := List.mem_singleton.mp hc
    exact .assumed (.here hΓ))

theorem g_fields {P : STy → Prop} (h1 : P T) (h2 : P (.assoc T out)) (h3 : P (phantomOf T)) : ∀ f ∈ g.allFields, P f := by
  intro f hf
  have : f = T ∨ f = .assoc T out ∨ f = phantomOf T := by
    simpa [GenTarget.allFields, g, GenTarget.params, BGenerics.combine, typeIdents, or_assoc, T] using hf
  rcases this with rfl | rfl | rfl <;> assumption

theorem assumed_in {Γ : List Bound} {b : Bound} (h : b ∈ Γ) : Holds w Γ b.1 b.2 := .assumed (.here h)

/-- It compiles. -/
theorem g_compiles : Compiles w g where
  structs := by
    refine g_fields ?_ ⟨?_, ?_⟩ (phantom_ok withSerde _ _)
    · exact fun d hd σ he => absurd he.symm (withSerde.noDefs d hd σ T c%"T").2.1
    · intro d hd σ he
      have : d = (.assoc T out, [(T, tSerializable)]) := by simpa [w] using hd
      subst this
      intro b hb
      obtain rfl := List.mem_singleton.mp hb
      have he : STy.assoc T out = .assoc (σ c%"T") out := he
      injection he with he
      exact .assumed (.here (by show (σ c%"T", tSerializable) ∈ g.bounds; rw [← he]; decide))
    · exact fun d hd σ he => absurd he.symm (withSerde.noDefs d hd σ T c%"T").2.1
  used b hb := by
    obtain rfl := List.mem_singleton.mp hb
    exact assumed_in (by decide)
  cloned := g_fields (assumed_in (b := (T, tClone)) (by decide)) (assoc_has (by simp) (by decide))
    (phantom_has withSerde (by simp) _ _)
  deriveSer := g_fields (assumed_in (b := (T, tSerialize)) (by decide)) (assoc_has (by simp) (by decide))
    (phantom_has withSerde (by simp) _ _)
  writeArgs b hb := by
    have : b = (T, tSerializable) ∨ b = (T, tSerialize) ∨ b = (.assoc T out, tSerialize) := by
      have e : g.bounds ++ derivedBounds g.params tSerialize g.allFields =
        [(T, tSerializable), (T, tSerialize), (.assoc T out, tSerialize)] := by decide
      rw [e] at hb
      simpa using hb
    rcases this with rfl | rfl | rfl
    · exact assumed_in (by decide)
    · exact assumed_in (by decide)
    · exact assoc_has (by simp) (by decide)
  deriveDe := g_fields (assumed_in (b := (T, tDeserialize)) (by decide)) (assoc_has (by simp) (by decide))
    (phantom_has withSerde (by simp) _ _)
  readArgs b hb := by
    have : b = (T, tSerializable) ∨ b = (T, tDeserialize) ∨ b = (.assoc T out, tDeserialize) := by
      have e : g.bounds ++ derivedBounds g.params tDeserialize g.allFields =
        [(T, tSerializable), (T, tDeserialize), (.assoc T out, tDeserialize)] := by decide
      rw [e] at hb
      simpa using hb
    rcases this with rfl | rfl | rfl
    · exact assumed_in (by decide)
    · exact .assumed (.super (.here (tr := tDeserializeOwned) (by decide)) (by simp [w]))
    · exact assoc_has (by simp) (by decide)
  result := u8_ok _
  entry b hb := by
    have hser : Holds w [] u8 tSerializable :=
      Holds.impl (w := w) (Γ := []) ⟨T, tSerializable, [(T, tSerialize)]⟩ (fun _ => u8) (by simp [w])
        (by intro c hc; obtain rfl := List.mem_singleton.mp hc; exact u8_has (by simp) [])
    have : b.1 = T ∧ b.2 ∈ [tClone, tSerialize, tDeserialize, tDeserializeOwned] ∨ b = (T, tSerializable) := by
      have e : ∀ b ∈ g.knownDe, b.1 = T ∧ b.2 ∈ [tClone, tSerialize, tDeserialize, tDeserializeOwned] ∨ b = (T, tSerializable) := by
        decide
      exact e b hb
    rcases this with ⟨h1, h2⟩ | rfl
    · rw [h1]
      exact u8_has h2 []
    · exact hser

/-- Without the option it would not, though `T` has the trait by the bounds of the target. -/
example : ¬ Compiles w { g with bounds := [] } := by
  intro h
  refine (C82_bounds_stated (w := w) (tr := tSerializable) (a := out) (by simp [w, T]) h (n := c%"T")
    (List.mem_cons_of_mem _ List.mem_cons_self)).2 ?_ rfl
  intro hh
  rcases holds_inv hh with hh | ⟨r, hr, σ, he, ht, hc⟩
  · exact assumed_nil hh
  · have key : ∀ r ∈ w.impls, (decide (r.trait = tSerializable) && !decide (r.pat = T ∧ r.conds = [(T, tSerialize)])) = false := by
      decide +kernel
    have := key r hr
    simp only [← ht, decide_true, Bool.true_and, Bool.not_eq_false', decide_eq_true_eq] at this
    rw [this.1] at he
    rw [this.2] at hc
    have hc := hc (T, tSerialize) List.mem_cons_self
    have he : STy.param c%"T" = σ c%"T" := he
    have hc : Holds w [] (σ c%"T") tSerialize := hc
    rw [← he] at hc
    exact assumed_nil ((C81_parameter (notForAll (by simp)) [] _).mp hc)

end BoundsDemo

end TF
