import Verif.Spec.Generics
import Verif.Props.Module

/-! # Generic parameters and arguments in the generated code: C78 -/

namespace TF

open Spec

theorem mem_lifetimesFirst {gs : List GParam} {g : GParam} : g ∈ lifetimesFirst gs ↔ g ∈ gs := by
  unfold lifetimesFirst
  rw [List.mem_append, List.mem_filter, List.mem_filter]
  cases g.isLifetime <;> simp

theorem perm_lifetimesFirst (gs : List GParam) : (lifetimesFirst gs).Perm gs := by
  unfold lifetimesFirst
  exact List.filter_append_perm _ gs

/-- No parameter is a constant. -/
def NoConst (gs : List GParam) : Prop := ∀ i, .const i ∉ gs

theorem toStructParam_eq {gs : List GParam} (h : NoConst gs) : gs.map (·.toStructParam) = gs := by
  induction gs with
  | nil => rfl
  | cons g gs ih =>
    rw [List.map_cons, ih fun i hi => h i (List.mem_cons_of_mem _ hi)]
    cases g with
    | const i => exact absurd List.mem_cons_self (h i)
    | _ => rfl

/-- The names of parameters have the kinds of these parameters. -/
theorem kinds_toArg {gs scope : List GParam} (h : NoConst gs) (hs : NoConst scope) :
    List.Forall₂ (ArgKind scope) (gs.map (·.toArg)) (gs.map kindOf) := by
  induction gs with
  | nil => exact .nil
  | cons g gs ih =>
    refine .cons ?_ (ih fun i hi => h i (List.mem_cons_of_mem _ hi))
    cases g with
    | const i => exact absurd List.mem_cons_self (h i)
    | ty i => exact .type fun j _ => hs j
    | lifetime s => exact .lifetime s

theorem argsFit_self (ks : List GKind) (b : Bool) : ArgsFit ks b ks := ⟨.inl rfl, .inl rfl⟩

theorem argsFit_nil (ks : List GKind) : ArgsFit ks true [] := ⟨.inr ⟨rfl, rfl⟩, .inr ⟨rfl, rfl⟩⟩

theorem noConst_first {gs : List GParam} (h : NoConst gs) : NoConst (lifetimesFirst gs) :=
  fun i hi => h i (mem_lifetimesFirst.mp hi)

theorem noConst_reader {gs : List GParam} (h : NoConst gs) : NoConst (readerParam :: lifetimesFirst gs) := by
  intro i hi
  rcases List.mem_cons.mp hi with hi | hi
  · cases hi
  · exact noConst_first h i hi

theorem typeIdents_kinds {gs scope : List GParam} (hs : NoConst scope) (h : NoConst gs) :
    List.Forall₂ (ArgKind scope) ((typeIdents gs).map fun i => .ty (.name i)) ((gs.map kindOf).filter (¬ IsLifetime ·)) := by
  induction gs with
  | nil => exact .nil
  | cons g gs ih =>
    have ih := ih fun i hi => h i (List.mem_cons_of_mem _ hi)
    cases g with
    | const i => exact absurd List.mem_cons_self (h i)
    | ty i => exact .cons (.type fun j _ => hs j) ih
    | lifetime s => exact ih

theorem filter_lifetimesFirst (gs : List GParam) :
    ((lifetimesFirst gs).map kindOf).filter (¬ IsLifetime ·) = (gs.map kindOf).filter (¬ IsLifetime ·) := by
  unfold lifetimesFirst
  rw [List.map_append, List.filter_append]
  have h1 : ((gs.filter (·.isLifetime)).map kindOf).filter (¬ IsLifetime ·) = [] := by
    rw [List.filter_eq_nil_iff]
    intro k hk
    obtain ⟨g, hg, rfl⟩ := List.mem_map.mp hk
    have := (List.mem_filter.mp hg).2
    cases g <;> simp [GParam.isLifetime, kindOf, IsLifetime] at this ⊢
  rw [h1, List.nil_append]
  induction gs with
  | nil => rfl
  | cons g gs ih =>
    have ih := ih (by
      rw [List.filter_eq_nil_iff]
      intro k hk
      obtain ⟨g, hg, rfl⟩ := List.mem_map.mp hk
      have := (List.mem_filter.mp hg).2
      cases g <;> simp [GParam.isLifetime, kindOf, IsLifetime] at this ⊢)
    cases g <;> simp_all [GParam.isLifetime, kindOf, IsLifetime]

theorem forall₂_mem_left {α β : Type} {r : α → β → Prop} {l : List α} {m : List β} (h : List.Forall₂ r l m) {a : α}
    (ha : a ∈ l) : ∃ b ∈ m, r a b := by
  induction h with
  | nil => cases ha
  | cons h1 _ ih =>
    rcases List.mem_cons.mp ha with rfl | ha
    · exact ⟨_, List.mem_cons_self, h1⟩
    · obtain ⟨b, hb, h2⟩ := ih ha
      exact ⟨b, List.mem_cons_of_mem _ hb, h2⟩

/-- **C78.** Unless only generic arguments are recorded: the generic parameters and arguments that the macro writes by itself
are right if and only if no parameter of the target or of its impl is a constant, and no type parameter is called `R`. -/
theorem C78_parameters (o : AttrOpts) (gs : List GParam) (ho : o.onlyGenericArgs = false) (hd : DistinctNames gs) :
    ((∀ l ∈ paramLists o gs, DistinctNames l) ∧ ∀ a ∈ internalApps o gs, Accepted o gs a) ↔
      (∀ i, .const i ∉ gs) ∧ .ty c%"R" ∉ gs := by
  constructor
  · rintro ⟨h1, h2⟩
    have hc : NoConst gs := by
      intro i hi
      obtain ⟨ks, h3, h4⟩ := h2 ⟨.args, gs, tyGenerics gs, true⟩ (by simp [internalApps, ho])
      simp only [GItem.params, ho, Bool.false_eq_true, if_false] at h4
      obtain ⟨k, hk, hk1⟩ := forall₂_mem_left h3 (List.mem_map.mpr ⟨_, mem_lifetimesFirst.mpr hi, rfl⟩)
      have hk2 : k = .const := by
        cases hk1 with
        | const _ => rfl
        | type h => exact absurd hi (h i rfl)
      subst hk2
      have hk3 : GKind.const ∈ ks.filter (¬ IsLifetime ·) := List.mem_filter.mpr ⟨hk, by decide⟩
      rcases h4.2 with h5 | ⟨-, h5⟩
      · rw [h5] at hk3
        obtain ⟨g, hg, hg1⟩ := List.mem_map.mp (List.mem_filter.mp hk3).1
        obtain ⟨g', -, rfl⟩ := List.mem_map.mp hg
        cases g' <;> cases hg1
      · rw [h5] at hk3
        cases hk3
    refine ⟨hc, fun hR => ?_⟩
    have := h1 (readerParam :: GItem.readArgs.params o gs) (by simp [paramLists, ho])
    unfold DistinctNames at this
    rw [List.map_cons, List.nodup_cons] at this
    exact this.1 (List.mem_map.mpr ⟨_, mem_lifetimesFirst.mpr hR, rfl⟩)
  · rintro ⟨hc, hR⟩
    have hc : NoConst gs := hc
    have hd1 : DistinctNames (lifetimesFirst gs) := ((perm_lifetimesFirst gs).map _).nodup_iff.mpr hd
    have e1 : ∀ it : GItem, it.params o gs = lifetimesFirst gs := by
      intro it
      cases it <;> simp [GItem.params, ho, toStructParam_eq (noConst_first hc)]
    refine ⟨?_, ?_⟩
    · have hr : DistinctNames (readerParam :: lifetimesFirst gs) := by
        unfold DistinctNames
        rw [List.map_cons, List.nodup_cons]
        refine ⟨?_, hd1⟩
        intro hm
        obtain ⟨g, hg, e⟩ := List.mem_map.mp hm
        cases g with
        | ty i =>
          have : i = c%"R" := by simpa [paramName, readerParam] using e
          subst this
          exact hR (mem_lifetimesFirst.mp hg)
        | lifetime s => simp [paramName, readerParam] at e
        | const i => exact hc i (mem_lifetimesFirst.mp hg)
      intro l hl
      simp only [paramLists, ho, e1, Bool.false_eq_true, if_false, List.mem_cons, List.not_mem_nil, or_false] at hl
      rcases hl with rfl | rfl | rfl | rfl | rfl | rfl <;> first | exact hd1 | exact hr
    · have named : ∀ it scope b, NoConst scope → Accepted o gs ⟨it, scope, tyGenerics gs, b⟩ := by
        intro it scope b hs
        exact ⟨_, kinds_toArg (noConst_first hc) hs, by rw [e1]; exact argsFit_self _ _⟩
      have bare : ∀ it scope, Accepted o gs ⟨it, scope, [], true⟩ := fun it scope => ⟨[], .nil, argsFit_nil _⟩
      intro a ha
      simp only [internalApps, ho, Bool.false_eq_true, if_false, List.mem_cons, List.not_mem_nil, or_false] at ha
      rcases ha with rfl | rfl | rfl | rfl | rfl | rfl | rfl | rfl | rfl | rfl | rfl
      · exact named _ _ _ hc
      · exact named _ _ _ hc
      · refine ⟨_, typeIdents_kinds hc hc, ?_⟩
        rw [e1]
        refine ⟨.inr ⟨rfl, ?_⟩, .inl ?_⟩
        · rw [List.filter_filter, List.filter_eq_nil_iff]
          intro k _
          by_cases hk : IsLifetime k <;> simp [hk]
        · rw [filter_lifetimesFirst, List.filter_filter]
          congr 1
          funext k
          by_cases hk : IsLifetime k <;> simp [hk]
      · exact bare _ _
      · exact named _ _ _ (noConst_first hc)
      · exact bare _ _
      · exact named _ _ _ (noConst_reader hc)
      · exact named _ _ _ (noConst_reader hc)
      · exact bare _ _
      · exact bare _ _
      · exact named _ _ _ (noConst_first hc)

/-- **C78.** If only generic arguments are recorded, neither constants nor names matter. -/
theorem C78_only_generic_args (o : AttrOpts) (gs : List GParam) (ho : o.onlyGenericArgs = true) :
    (∀ l ∈ paramLists o gs, DistinctNames l) ∧ ∀ a ∈ internalApps o gs, Accepted o gs a := by
  constructor
  · intro l hl
    simp only [paramLists, ho, if_true, List.mem_singleton] at hl
    subst hl
    exact List.nodup_nil
  · intro a ha
    simp only [internalApps, ho, if_true, List.mem_cons, List.not_mem_nil, or_false, or_self] at ha
    subst ha
    exact ⟨[], .nil, argsFit_nil _⟩

theorem lifetimesFirst_lead (gs : List GParam) : LifetimesLead (fun g => kindOf g = .lifetime) (lifetimesFirst gs) := by
  refine ⟨_, _, rfl, fun x hx => ?_, fun x hx => ?_⟩
  · have := (List.mem_filter.mp hx).2
    cases x <;> simp_all [GParam.isLifetime, kindOf]
  · have := (List.mem_filter.mp hx).2
    cases x <;> simp_all [GParam.isLifetime, kindOf]

theorem LifetimesLead.map {α β : Type} {P : α → Prop} {Q : β → Prop} {f : α → β} (h : ∀ x, Q (f x) ↔ P x) {l : List α}
    (hl : LifetimesLead P l) : LifetimesLead Q (l.map f) := by
  obtain ⟨a, b, rfl, ha, hb⟩ := hl
  refine ⟨a.map f, b.map f, List.map_append, fun x hx => ?_, fun x hx => ?_⟩
  · obtain ⟨y, hy, rfl⟩ := List.mem_map.mp hx
    exact (h y).mpr (ha y hy)
  · obtain ⟨y, hy, rfl⟩ := List.mem_map.mp hx
    exact fun hq => hb y hy ((h y).mp hq)

/-- **C78 (order).** In all lists of parameters and arguments that the macro writes, also where those of an impl and of a method
are put together, lifetimes come first; none of the parameters is lost or added. -/
theorem C78_order (o : AttrOpts) (gs : List GParam) :
    (∀ it : GItem, LifetimesLead (fun g => kindOf g = .lifetime) (it.params o gs) ∧
      (o.onlyGenericArgs = false → ((it.params o gs).map paramName).Perm (gs.map paramName))) ∧
    ∀ a ∈ internalApps o gs, LifetimesLead (fun g => ∃ s, g = .lifetime s) a.args := by
  have hs := LifetimesLead.map (Q := fun g => kindOf g = .lifetime) (f := (·.toStructParam))
    (fun x => by cases x <;> simp [GParam.toStructParam, kindOf]) (lifetimesFirst_lead gs)
  have ht : LifetimesLead (fun g => ∃ s, g = .lifetime s) (tyGenerics gs) :=
    LifetimesLead.map (fun x => by cases x <;> simp [GParam.toArg, kindOf]) (lifetimesFirst_lead gs)
  have hp : (lifetimesFirst gs).Perm gs := List.filter_append_perm _ gs
  have hq : (((lifetimesFirst gs).map (·.toStructParam)).map paramName).Perm (gs.map paramName) := by
    rw [List.map_map]
    have : paramName ∘ GParam.toStructParam = paramName := by
      funext x; cases x <;> rfl
    rw [this]
    exact hp.map _
  have hn : ∀ {α : Type} {P : α → Prop}, LifetimesLead P ([] : List α) := ⟨[], [], rfl, nofun, nofun⟩
  constructor
  · intro it
    cases it <;> simp only [GItem.params]
    · split
      · exact ⟨hn, fun h => by simp_all⟩
      · exact ⟨hs, fun _ => hq⟩
    · exact ⟨lifetimesFirst_lead gs, fun _ => hp.map _⟩
    · exact ⟨lifetimesFirst_lead gs, fun _ => hp.map _⟩
    · exact ⟨hs, fun _ => hq⟩
    · exact ⟨hs, fun _ => hq⟩
  · intro a ha
    unfold internalApps at ha
    split at ha
    · simp only [List.mem_cons, List.not_mem_nil, or_false, or_self] at ha
      subst ha
      exact hn
    · simp only [List.mem_cons, List.not_mem_nil, or_false] at ha
      rcases ha with rfl | rfl | rfl | rfl | rfl | rfl | rfl | rfl | rfl | rfl | rfl <;> first | exact ht | exact hn | skip
      refine ⟨[], _, rfl, nofun, fun x hx => ?_⟩
      obtain ⟨i, -, rfl⟩ := List.mem_map.mp hx
      simp

/-- A lifetime of a method after a type of its impl. -/
example : GItem.readArgs.params {} [.ty c%"T", .lifetime c%"a"] = [.lifetime c%"a", .ty c%"T"] := by decide +kernel

/-! ## The arguments of the user -/

/-- The kind of an argument where no constant can be named. -/
def plainKind : GArg → GKind
  | .ty _ => .type
  | .lifetime _ => .lifetime
  | .other _ => .const

theorem argKinds_iff {scope : List GParam} (h : NoConst scope) (l : List GArg) (ks : List GKind) :
    List.Forall₂ (ArgKind scope) l ks ↔ ks = l.map plainKind := by
  constructor
  · intro h1
    induction h1 with
    | nil => rfl
    | cons h2 _ ih =>
      rw [List.map_cons, ih]
      cases h2 with
      | const h3 => exact absurd h3 (h _)
      | _ => rfl
  · rintro rfl
    induction l with
    | nil => exact .nil
    | cons a l ih =>
      refine .cons ?_ ih
      cases a with
      | ty t => exact .type fun i _ => h i
      | lifetime s => exact .lifetime s
      | other ts => exact .other ts

theorem accepted_iff {o : AttrOpts} {gs scope : List GParam} (h : NoConst scope) (it : GItem) (l : List GArg) (b : Bool) :
    Accepted o gs ⟨it, scope, l, b⟩ ↔ ArgsFit ((it.params o gs).map kindOf) b (l.map plainKind) := by
  unfold Accepted
  simp only [argKinds_iff h]
  exact ⟨fun ⟨_, e, h⟩ => e ▸ h, fun h => ⟨_, rfl, h⟩⟩

theorem lifetimes_of_args (l : List GArg) : ((l.map plainKind).filter (IsLifetime ·)).length = lifetimeArgs l := by
  induction l with
  | nil => rfl
  | cons a l ih => cases a <;> simp_all [plainKind, IsLifetime, lifetimeArgs]

theorem lifetimes_of_params (l : List GParam) : ((l.map kindOf).filter (IsLifetime ·)).length = lifetimeParams l := by
  induction l with
  | nil => rfl
  | cons a l ih => cases a <;> simp_all [kindOf, IsLifetime, lifetimeParams]

theorem others_of_params {l : List GParam} (h : NoConst l) :
    (l.map kindOf).filter (¬ IsLifetime ·) = List.replicate (numTypes l) .type := by
  induction l with
  | nil => rfl
  | cons a l ih =>
    have ih := ih fun i hi => h i (List.mem_cons_of_mem _ hi)
    cases a with
    | const i => exact absurd List.mem_cons_self (h i)
    | _ => simp_all [kindOf, IsLifetime, numTypes, List.replicate_succ]

theorem others_of_args (l : List GArg) (n : Nat) :
    (l.map plainKind).filter (¬ IsLifetime ·) = List.replicate n .type ↔ numTypeArgs l = n ∧ ∀ ts, .other ts ∉ l := by
  induction l generalizing n with
  | nil =>
    constructor
    · intro h
      have : n = 0 := by simpa using h.symm
      subst this
      exact ⟨rfl, fun _ h => by cases h⟩
    · rintro ⟨rfl, -⟩
      rfl
  | cons a l ih =>
    cases a with
    | ty t =>
      cases n with
      | zero => simp [plainKind, IsLifetime, numTypeArgs]
      | succ n =>
        have := ih n
        simp_all [plainKind, IsLifetime, numTypeArgs, List.replicate_succ]
    | lifetime s =>
      have := ih n
      simp_all [plainKind, IsLifetime, numTypeArgs]
    | other ts =>
      constructor
      · intro h
        cases n with
        | zero => simp [plainKind, IsLifetime] at h
        | succ n => simp [plainKind, IsLifetime, List.replicate_succ] at h
      · rintro ⟨-, h⟩
        exact absurd List.mem_cons_self (h ts)

theorem others_none (l : List GArg) :
    (l.map plainKind).filter (¬ IsLifetime ·) = [] ↔ numTypeArgs l = 0 ∧ ∀ ts, .other ts ∉ l :=
  others_of_args l 0

theorem lifetimes_none (l : List GArg) : (l.map plainKind).filter (IsLifetime ·) = [] ↔ lifetimeArgs l = 0 := by
  rw [← List.length_eq_zero_iff, lifetimes_of_args]

theorem numTypes_perm {l l' : List GParam} (h : l.Perm l') : numTypes l = numTypes l' := by
  induction h with
  | nil => rfl
  | cons a _ ih => cases a <;> simp [numTypes, ih]
  | swap a b l => cases a <;> cases b <;> rfl
  | trans _ _ ih ih' => exact ih.trans ih'

theorem lifetimeParams_perm {l l' : List GParam} (h : l.Perm l') : lifetimeParams l = lifetimeParams l' := by
  induction h with
  | nil => rfl
  | cons a _ ih => cases a <;> simp [lifetimeParams, ih]
  | swap a b l => cases a <;> cases b <;> rfl
  | trans _ _ ih ih' => exact ih.trans ih'

theorem numTypeArgs_lifetimes (l : List GArg) (k : Nat) (s : Str) :
    numTypeArgs (l ++ List.replicate k (.lifetime s)) = numTypeArgs l := by
  induction l with
  | nil =>
    induction k with
    | zero => rfl
    | succ k ih => simpa [List.replicate_succ, numTypeArgs] using ih
  | cons a l ih => cases a <;> simp_all [numTypeArgs]

theorem getD_combineArgs (o : AttrOpts) : (combineArgs o.implGenericArgs o.genericArgs).getD [] = givenArgs o := by
  unfold givenArgs
  cases o.implGenericArgs <;> cases o.genericArgs <;> simp [combineArgs]

/-- **C78.** The arguments that were given are right, wherever they are used in the module, if and only if they contain as many
types as there are parameters, no constants, and either all of the lifetimes or none. -/
theorem C78_arguments (fz : Bool) (im : Option ImplIn) (o : AttrOpts) (f : FnIn) (n n' : Nat) (m : MethodM)
    (mo : ModuleM) (h : mapMethodOrFn fz im o f n = .ok (m, mo, n')) (ho : o.onlyGenericArgs = false)
    (hc : ∀ i, .const i ∉ implParams im ++ f.generics) :
    (∀ a ∈ userApps o (implParams im ++ f.generics) mo.retArgs, Accepted o (implParams im ++ f.generics) a) ↔
      numTypeArgs (givenArgs o) = numTypes (implParams im ++ f.generics) ∧ (∀ ts, .other ts ∉ givenArgs o) ∧
      (numLifetimeArgs (givenArgs o) = 0 ∨
        numLifetimeArgs (givenArgs o) = numLifetimes (implParams im ++ f.generics)) := by
  obtain ⟨ra, _, _, _, h1, -, -, -, -, rfl⟩ := mapMethodOrFn_ok h
  have hgs : (im.map (·.generics)).getD [] ++ f.generics = implParams im ++ f.generics := rfl
  rw [hgs] at h1
  revert h1 hc
  generalize implParams im ++ f.generics = gs
  intro hc h1
  have hc : NoConst gs := hc
  have e1 : ∀ it : GItem, it.params o gs = lifetimesFirst gs := by
    intro it
    cases it <;> simp [GItem.params, ho, toStructParam_eq (noConst_first hc)]
  have eT := numTypes_perm (perm_lifetimesFirst gs)
  have eL := lifetimeParams_perm (perm_lifetimesFirst gs)
  have h0 : NoConst [] := fun _ h => by cases h
  unfold withDummyLifetimes at h1
  simp only [getD_combineArgs] at h1
  split at h1
  · cases h1
  rename_i hlt
  cases h1
  rw [← lifetimeArgs_eq, ← lifetimeParams_eq]
  have hm : ∀ k s, (∀ ts, GArg.other ts ∉ givenArgs o ++ List.replicate k (.lifetime s)) ↔
      ∀ ts, .other ts ∉ givenArgs o := by
    intro k s
    refine forall_congr' fun ts => ?_
    rw [List.mem_append, List.mem_replicate]
    simp
  simp only [userApps, getD_combineArgs, List.mem_cons, List.not_mem_nil, or_false, forall_eq_or_imp, forall_eq,
    accepted_iff (noConst_first hc), accepted_iff h0, e1]
  unfold ArgsFit
  simp only [lifetimes_of_args, lifetimes_of_params, others_of_params (noConst_first hc), others_of_args, eT, eL,
    others_none, lifetimes_none, numTypeArgs_lifetimes, hm, lifetimeArgs_append, lifetimeArgs_replicate]
  by_cases ht : ∀ ts, GArg.other ts ∉ givenArgs o
  · simp only [ht, not_false_eq_true, implies_true, and_true, true_and, Bool.false_eq_true, false_and, or_false]
    omega
  · simp only [ht, and_false, false_and, or_self]

/-! ## Bounds -/

/-- **C78.** The parameters of the impl and of the function are declared together, each with the bounds that it has, and all
predicates of both are kept; there is a where clause if there was one. -/
theorem C78_combined (l r : GenericsM) :
    (combineGenerics l r).params = l.params ++ r.params ∧
      (combineGenerics l r).where_.getD [] = l.where_.getD [] ++ r.where_.getD [] ∧
      ((combineGenerics l r).where_ = none ↔ l.where_ = none ∧ r.where_ = none) := by
  unfold combineGenerics
  refine ⟨rfl, ?_, ?_⟩ <;> cases l.where_ <;> cases r.where_ <;> simp

/-- **C78.** What is read must be deserializable: this is added to the bounds of the types, which are kept, as is everything
else. -/
theorem C78_deserialize (g : GenericsM) :
    (restrictToDeserialize g).where_ = g.where_ ∧
      List.Forall₂ (fun p q : GParam × List Str => p.1 = q.1 ∧
        ((∃ i, p.1 = .ty i) → q.2 = p.2 ++ [c%"serde::de::DeserializeOwned"]) ∧ ((∀ i, p.1 ≠ .ty i) → q.2 = p.2))
        g.params (restrictToDeserialize g).params := by
  refine ⟨rfl, ?_⟩
  unfold restrictToDeserialize
  generalize g.params = l
  induction l with
  | nil => exact .nil
  | cons p l ih =>
    refine .cons ?_ ih
    obtain ⟨g, b⟩ := p
    cases g with
    | ty i => exact ⟨rfl, fun _ => rfl, fun h => absurd rfl (h i)⟩
    | lifetime s => exact ⟨rfl, fun ⟨i, h⟩ => (by cases h), fun _ => rfl⟩
    | const i => exact ⟨rfl, fun ⟨i, h⟩ => (by cases h), fun _ => rfl⟩

/-! ## Cases -/

namespace GenericsDemo

/-- `impl<'a, T> Foo<'a, T> { fn target<U>(..) }` -/
def good : List GParam := [.lifetime c%"a", .ty c%"T", .ty c%"U"]

/-- `impl<T> Foo<T> { fn target<const N: usize>(..) }` -/
def withConst : List GParam := [.ty c%"T", .const c%"N"]

/-- `fn target<R: Read>(..)` -/
def withR : List GParam := [.ty c%"R"]

example : DistinctNames good ∧ DistinctNames withConst ∧ DistinctNames withR := by
  unfold DistinctNames
  decide +kernel

example : (∀ l ∈ paramLists {} good, DistinctNames l) ∧ ∀ a ∈ internalApps {} good, Accepted {} good a :=
  (C78_parameters {} good rfl (by unfold DistinctNames; decide +kernel)).mpr
    ⟨fun i h => by simp [good] at h, by decide +kernel⟩

example : ¬ ((∀ l ∈ paramLists {} withConst, DistinctNames l) ∧ ∀ a ∈ internalApps {} withConst, Accepted {} withConst a) :=
  fun h => ((C78_parameters {} withConst rfl (by unfold DistinctNames; decide +kernel)).mp h).1 c%"N" (by decide +kernel)

example : ¬ ((∀ l ∈ paramLists {} withR, DistinctNames l) ∧ ∀ a ∈ internalApps {} withR, Accepted {} withR a) :=
  fun h => ((C78_parameters {} withR rfl (by unfold DistinctNames; decide +kernel)).mp h).2 (by decide +kernel)

/-- `impl<'a, T> m::Foo<'a, T>` with `impl_generic_args = "u8"`. -/
def opts : AttrOpts := { implGenericArgs := some [.ty (.name c%"u8")], convert := [(.name c%"Wide", .name c%"u8")] }

example : ∃ m mo n, mapMethodOrFn true (some ExpandDemo.x) opts ExpandDemo.target 0 = .ok (m, mo, n) ∧
    ∀ a ∈ userApps opts (implParams (some ExpandDemo.x) ++ ExpandDemo.target.generics) mo.retArgs,
      Accepted opts (implParams (some ExpandDemo.x) ++ ExpandDemo.target.generics) a := by
  refine ⟨_, _, _, rfl, ?_⟩
  refine (C78_arguments true (some ExpandDemo.x) opts ExpandDemo.target 0 _ _ _ rfl rfl ?_).mpr ⟨rfl, ?_, .inl rfl⟩
  · intro i h
    simp [implParams, ExpandDemo.x, ExpandDemo.target] at h
  · intro ts h
    simp [givenArgs, opts] at h

end GenericsDemo

end TF
