import Verif.Props.Bounds

/-! # Which bounds targets with the option `bounds`, or with arguments of associated types, need: C82 -/

namespace TF

/-- The bounds that the derived impls of `Args` have, in addition to those of the option `bounds`, said of the arguments: the
parameters that occur in their types, and the types that are `T::A`, have the trait. -/
def Spec.Demanded (g : GenTarget) (tr : Str) (b : Bound) : Prop :=
  b.2 = tr ∧ ((∃ n ∈ g.params, (∃ f ∈ g.fields, Spec.Occurs n f) ∧ b.1 = .param n) ∨ (b.1 ∈ g.fields ∧ Spec.Projects g.params b.1))

/-- Known by the option `bounds` and these. -/
def Spec.HoldsDerived (w : Traits) (g : GenTarget) (tr : Str) (t : STy) : Prop :=
  ∃ Γ : List Bound, (∀ b, b ∈ Γ ↔ Demanded g tr b) ∧ Holds w (g.bounds ++ Γ) t tr

open Spec

section
variable {w : Traits} {g : GenTarget}

theorem mem_derived (tr : Str) (b : Bound) : b ∈ derivedBounds g.params tr g.allFields ↔ Demanded g tr b := by
  obtain ⟨t, tr'⟩ := b
  unfold derivedBounds Demanded
  simp only [List.mem_append, List.mem_map, List.mem_filter, all_relevant, List.any_eq_true, occurs_iff, assocUse_iff,
    Prod.mk.injEq]
  constructor
  · rintro (⟨n, ⟨hn, h⟩, rfl, rfl⟩ | ⟨f, ⟨hf, hp⟩, rfl, rfl⟩)
    · exact ⟨rfl, .inl ⟨n, hn, h, rfl⟩⟩
    · rcases List.mem_append.mp hf with hf | hf
      · exact ⟨rfl, .inr ⟨hf, hp⟩⟩
      · obtain ⟨m, -, rfl⟩ := List.mem_map.mp hf
        obtain ⟨_, _, _, he, -⟩ := hp
        cases he
  · rintro ⟨rfl, ⟨n, hn, h, rfl⟩ | ⟨hf, hp⟩⟩
    · exact .inl ⟨n, ⟨hn, h⟩, rfl, rfl⟩
    · exact .inr ⟨t, ⟨List.mem_append_left _ hf, hp⟩, rfl, rfl⟩

theorem holdsDerived_iff (tr : Str) (t : STy) :
    HoldsDerived w g tr t ↔ Holds w (g.bounds ++ derivedBounds g.params tr g.allFields) t tr := by
  constructor
  · rintro ⟨Γ, hΓ, h⟩
    refine holds_mono (fun b hb => ?_) h
    rcases List.mem_append.mp hb with hb | hb
    · exact List.mem_append_left _ hb
    · exact List.mem_append_right _ ((mem_derived tr b).mpr ((hΓ b).mp hb))
  · exact fun h => ⟨_, mem_derived tr, h⟩

/-- **C82.** Any target compiles iff all of this is so. By the option `bounds` alone, the types of the arguments can be written
down. By the bounds of the target: those of the option hold, arguments can be cloned, the result can be written down, parameters
in the types of arguments are serializable, and arguments of types `T::A` are. By these and the deserializability of parameters,
arguments of types `T::A` are deserializable. By the option and the serializability (deserializability) of parameters and of types
`T::A`, other arguments are serializable (deserializable). And what is given satisfies the bounds and is deserializable. -/
theorem C82_complete (hs : WithSerde w) :
    Compiles w g ↔
      (∀ f ∈ g.fields, TyOk w g.bounds f) ∧ (∀ b ∈ g.bounds, Holds w g.known b.1 b.2) ∧ TyOk w g.known g.ret ∧
      (∀ f ∈ g.fields, Holds w g.known f tClone) ∧
      (∀ n ∈ g.params, (∃ f ∈ g.fields, Occurs n f) → Holds w g.known (.param n) tSerialize) ∧
      (∀ f ∈ g.fields, Projects g.params f → Holds w g.known f tSerialize ∧ Holds w g.knownDe f tDeserialize) ∧
      (∀ f ∈ g.fields, ¬ Projects g.params f → HoldsDerived w g tSerialize f ∧ HoldsDerived w g tDeserialize f) ∧
      Satisfies w g.known g.args ∧ ∀ n ∈ g.params, Holds w [] (g.args n) tDeserializeOwned := by
  have hf : ∀ f ∈ g.fields, f ∈ g.allFields := fun f h => List.mem_append_left _ h
  constructor
  · intro h
    refine ⟨fun f h' => h.structs f (hf f h'), h.used, h.result, fun f h' => h.cloned f (hf f h'), ?_, ?_, ?_, ?_, ?_⟩
    · intro n hn ho
      exact h.writeArgs (.param n, tSerialize) (List.mem_append_right _ ((mem_derived _ _).mpr ⟨rfl, .inl ⟨n, hn, ho, rfl⟩⟩))
    · intro f h' hp
      exact ⟨h.writeArgs (f, tSerialize) (List.mem_append_right _ ((mem_derived _ _).mpr ⟨rfl, .inr ⟨h', hp⟩⟩)),
        h.readArgs (f, tDeserialize) (List.mem_append_right _ ((mem_derived _ _).mpr ⟨rfl, .inr ⟨h', hp⟩⟩))⟩
    · exact fun f h' _ => ⟨(holdsDerived_iff _ _).mpr (h.deriveSer f (hf f h')), (holdsDerived_iff _ _).mpr (h.deriveDe f (hf f h'))⟩
    · exact fun b hb => h.entry b (List.mem_append_left _ hb)
    · intro n hn
      exact h.entry (.param n, tDeserializeOwned) (List.mem_append_right _ (List.mem_map.mpr ⟨n, hn, rfl⟩))
  · rintro ⟨h1, h2, h3, h4, h5, h6, h7, h8, h9⟩
    have split : ∀ {P : STy → Prop}, (∀ f ∈ g.fields, P f) → (∀ n, P (phantomOf (.param n))) → ∀ f ∈ g.allFields, P f := by
      intro P p1 p2 f hf
      rcases List.mem_append.mp hf with hf | hf
      · exact p1 f hf
      · obtain ⟨m, -, rfl⟩ := List.mem_map.mp hf
        exact p2 m
    have own : ∀ tr, ∀ f ∈ g.fields, Projects g.params f →
        Holds w (g.bounds ++ derivedBounds g.params tr g.allFields) f tr := fun tr f hm hp =>
      .assumed (.here (List.mem_append_right _ ((mem_derived _ _).mpr ⟨rfl, .inr ⟨hm, hp⟩⟩)))
    refine ⟨split h1 (phantom_ok hs _), h2, split h4 fun n => phantom_has hs (by simp) _ _, ?_, ?_, ?_, ?_, h3, ?_⟩
    · refine split (fun f hm => ?_) fun n => phantom_has hs (by simp) _ _
      by_cases hp : Projects g.params f
      · exact own _ f hm hp
      · exact (holdsDerived_iff _ _).mp (h7 f hm hp).1
    · intro b hb
      rcases List.mem_append.mp hb with hb | hb
      · exact h2 b hb
      · obtain ⟨t, tr⟩ := b
        obtain ⟨rfl, ⟨n, hn, ho, rfl⟩ | ⟨hm, hp⟩⟩ := (mem_derived _ _).mp hb
        · exact h5 n hn ho
        · exact (h6 t hm hp).1
    · refine split (fun f hm => ?_) fun n => phantom_has hs (by simp) _ _
      by_cases hp : Projects g.params f
      · exact own _ f hm hp
      · exact (holdsDerived_iff _ _).mp (h7 f hm hp).2
    · intro b hb
      rcases List.mem_append.mp hb with hb | hb
      · exact holds_mono (fun b hb => List.mem_append_left _ hb) (h2 b hb)
      · obtain ⟨t, tr⟩ := b
        obtain ⟨rfl, ⟨n, hn, ho, rfl⟩ | ⟨hm, hp⟩⟩ := (mem_derived _ _).mp hb
        · exact .assumed (.super (.here (List.mem_append_right _ (List.mem_map.mpr ⟨n, hn, rfl⟩))) hs.owned)
        · exact (h6 t hm hp).2
    · intro b hb'
      rcases List.mem_append.mp hb' with hb' | hb'
      · exact h8 b hb'
      · obtain ⟨n, hn, rfl⟩ := List.mem_map.mp hb'
        exact h9 n hn

/-- **C82.** That parameters are deserializable need not be stated; that an argument of type `T::A` is must: unless there are impls
for such types, the bounds of the target have to say so. -/
theorem C82_projected {a : Str} {t : STy} (hp : Projects g.params (.assoc t a)) (hf : .assoc t a ∈ g.fields)
    (hi : ∀ r ∈ w.impls, r.trait = tDeserialize → ∀ σ, .assoc t a ≠ r.pat.subst σ) (h : Compiles w g) :
    Assumed w g.known (.assoc t a) tDeserialize := by
  have h := h.readArgs (.assoc t a, tDeserialize)
    (List.mem_append_right _ ((mem_derived _ _).mpr ⟨rfl, .inr ⟨hf, hp⟩⟩))
  rcases holds_inv h with h | ⟨r, hr, σ, he, ht, -⟩
  · have key : ∀ u tr, Assumed w g.knownDe u tr → (∀ n, u ≠ .param n) → Assumed w g.known u tr := by
      intro u tr h hu
      induction h with
      | here h =>
        rcases List.mem_append.mp h with h | h
        · exact .here h
        · obtain ⟨n, -, he⟩ := List.mem_map.mp h
          exact absurd (congrArg Prod.fst he).symm (hu n)
      | super _ h ih => exact .super ih h
    exact key _ _ h fun n => nofun
  · exact absurd he (hi r hr ht.symm σ)

end

/-! ## Examples -/

/-- **C82 (by name).** What `C82_complete` needs of the types of arguments, and of the types given for parameters, with the names of the
traits written out. -/
theorem C82_names (hs : WithSerde w) (h : Compiles w g) :
    (∀ f ∈ g.fields, Holds w g.known f c%"core::clone::Clone") ∧
    (∀ n ∈ g.params, (∃ f ∈ g.fields, Occurs n f) → Holds w g.known (.param n) c%"serde::Serialize") ∧
    (∀ f ∈ g.fields, Projects g.params f →
      Holds w g.known f c%"serde::Serialize" ∧ Holds w g.knownDe f c%"serde::Deserialize") ∧
    (∀ f ∈ g.fields, ¬ Projects g.params f →
      HoldsDerived w g c%"serde::Serialize" f ∧ HoldsDerived w g c%"serde::Deserialize" f) ∧
    ∀ n ∈ g.params, Holds w [] (g.args n) c%"serde::de::DeserializeOwned" := by
  obtain ⟨-, -, -, h4, h5, h6, h7, -, h9⟩ := (C82_complete hs).mp h
  exact ⟨h4, h5, h6, h7, h9⟩

namespace BoundsDemo

/-- The target of fuzzable/tests/associated_type.rs has an argument of such a type. -/
example : Projects g.params (.assoc T out) ∧ .assoc T out ∈ g.fields := ⟨⟨T, out, c%"T", rfl, rfl, by decide⟩, by decide⟩

/-- `trait Tr { type Out; }`, without bounds on `Out`. -/
def bare : Traits where
  impls := [tClone, tSerialize, tDeserialize].map (fun tr => ⟨phantomOf T, tr, []⟩) ++
    [tClone, tSerialize, tDeserialize, tDeserializeOwned, tSerializable].map (fun tr => ⟨u8, tr, []⟩)
  supers tr := if tr = tDeserializeOwned then [tDeserialize] else []
  defs := [(.assoc T out, [(T, tSerializable)])]

/-- `fn f<T: Tr>(x: T::Out) where T::Out: Clone + Serialize` does not compile, with whatever is given and whatever the option. -/
example (bounds : List Bound) (args : Str → STy) :
    ¬ Compiles bare ⟨⟨[], []⟩, ⟨[(.ty c%"T", [tSerializable])], [(.assoc T out, tClone), (.assoc T out, tSerialize)]⟩, bounds,
      [.assoc T out], u8, args⟩ := by
  intro h
  have hi : ∀ r ∈ bare.impls, r.trait = tDeserialize → ∀ σ, STy.assoc T out ≠ r.pat.subst σ := by
    have : ∀ r ∈ bare.impls, r.pat = phantomOf T ∨ r.pat = u8 := by decide +kernel
    intro r hr _ σ
    rcases this r hr with h | h <;> rw [h] <;> exact nofun
  have ha := C82_projected (a := out) (t := T) ⟨T, out, c%"T", rfl, rfl, List.mem_singleton.mpr rfl⟩ (List.mem_singleton.mpr rfl) hi h
  have key : ∀ t tr, Assumed bare [(T, tSerializable), (.assoc T out, tClone), (.assoc T out, tSerialize)] t tr →
      tr ∈ [tSerializable, tClone, tSerialize] := by
    intro t tr h
    induction h with
    | here h =>
      have e : ∀ b ∈ [((T, tSerializable) : Bound), (.assoc T out, tClone), (.assoc T out, tSerialize)],
        b.2 ∈ [tSerializable, tClone, tSerialize] := by decide
      exact e _ h
    | super _ h ih =>
      have : ∀ tr ∈ [tSerializable, tClone, tSerialize], bare.supers tr = [] := by decide
      rw [this _ ih] at h
      cases h
  have := key _ _ ha
  revert this
  decide

/-- C82_names: `T` is serializable in `f`, and what is given for it in `g` is deserializable. -/
example : Holds w f.known T c%"serde::Serialize" ∧ Holds w [] (g.args c%"T") c%"serde::de::DeserializeOwned" :=
  ⟨(C82_names withSerde f_compiles).2.1 c%"T" (by decide) ⟨T, List.mem_singleton.mpr rfl, rfl⟩,
    (C82_names withSerde g_compiles).2.2.2.2 c%"T" (by decide)⟩

end BoundsDemo

end TF
