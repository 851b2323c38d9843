import Verif.Model.Bounds
import Verif.Spec.Traits

/-! # What targets need -/

namespace TF.Spec

open TF

/-- The crates `core` and `serde`, as far as the generated code needs them: `PhantomData` has the traits in question,
`DeserializeOwned` is `Deserialize` for all lifetimes, and nothing else is asked for by parameters and `PhantomData`. -/
structure WithSerde (w : Traits) : Prop where
  phantoms : ∀ tr ∈ [tClone, tSerialize, tDeserialize], (⟨phantomOf (.param c%"T"), tr, []⟩ : ImplRule) ∈ w.impls
  owned : tDeserialize ∈ w.supers tDeserializeOwned
  noDefs : ∀ d ∈ w.defs, ∀ σ t n, d.1.subst σ ≠ phantomOf t ∧ d.1.subst σ ≠ .param n ∧ d.1.subst σ ≠ .con phantomName

/-- The path begins with the parameter: `T`, `T::A`, `T::A::B`, ... -/
def RootedAt (n : Str) : STy → Prop
  | .param m => m = n
  | .assoc t _ => RootedAt n t
  | _ => False

/-- The type is of the form `T::A`, `T::A::B`, ... for one of the parameters. -/
def Projects (params : List Str) (t : STy) : Prop := ∃ s a n, t = .assoc s a ∧ RootedAt n s ∧ n ∈ params

/-- A type parameter of the target or of its impl. -/
def TypeParam (g : GenTarget) (n : Str) : Prop := ∃ bs, (.ty n, bs) ∈ g.impl_.params ∨ (.ty n, bs) ∈ g.fn_.params

/-- The target or its impl states the bound, where it declares a parameter or in a where clause. -/
def States (g : GenTarget) (t : STy) (tr : Str) : Prop :=
  (∃ n bs, t = .param n ∧ tr ∈ bs ∧ ((.ty n, bs) ∈ g.impl_.params ∨ (.ty n, bs) ∈ g.fn_.params)) ∨
    (t, tr) ∈ g.impl_.preds ∨ (t, tr) ∈ g.fn_.preds

/-- The parameter occurs in the type as such. -/
def Occurs (n : Str) : STy → Prop
  | .param m => m = n
  | .con _ => False
  | .app f a => f ≠ .con phantomName ∧ (Occurs n f ∨ Occurs n a)
  | .assoc t _ => (∀ m, ¬ RootedAt m t) ∧ Occurs n t

end TF.Spec
