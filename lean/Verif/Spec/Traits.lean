import Verif.Model.Traits

/-! # What is known about types -/

namespace TF.Spec

open TF

/-- The type has no parameters. -/
def NoParams : STy → Prop
  | .param _ => False
  | .con _ => True
  | .app f a => NoParams f ∧ NoParams a
  | .assoc t _ => NoParams t

/-- Types that may be put in place of the parameters: they satisfy the bounds. -/
def Satisfies (w : Traits) (Γ : List Bound) (θ : Str → STy) : Prop := ∀ b ∈ Γ, Holds w [] (b.1.subst θ) b.2

/-- A type with a trait has its supertraits, which the compiler checks for every impl. -/
def SupersHold (w : Traits) : Prop := ∀ Γ t tr tr', Holds w Γ t tr → tr' ∈ w.supers tr → Holds w Γ t tr'

/-- The crate `runtime` is there. Its impls are for all types, so that there cannot be others of the same traits. -/
def WithRuntime (w : Traits) : Prop :=
  (∀ r ∈ runtimeImpls, r ∈ w.impls) ∧
    ∀ r ∈ w.impls, r.trait ∈ [tMinValueAddOne, tMaxValueSubOne, tTwo, tMiddle] → r ∈ runtimeImpls

/-- What a type offers is what it implements. -/
structure Offers {α : Type} (w : Traits) (t : STy) (c : Caps α) : Prop where
  bounded : c.bounded.isSome = true ↔ Holds w [] t tBounded
  default_ : c.default_.isSome = true ↔ Holds w [] t tDefault
  one : c.one.isSome = true ↔ Holds w [] t tOne
  add : c.add.isSome = true ↔ Holds w [] t tAdd
  sub : c.sub.isSome = true ↔ Holds w [] t tSub
  div : c.div.isSome = true ↔ Holds w [] t tDiv

/-- No impl of the trait is for all types. -/
def NotForAll (w : Traits) (tr : Str) : Prop := ∀ r ∈ w.impls, r.trait = tr → ∀ n, r.pat ≠ .param n

end TF.Spec
