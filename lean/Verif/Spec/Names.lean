import Verif.Rust.Basic

/-! # Names in the generated module -/

namespace TF.Spec

/-- The names of types that the generated module declares: with `only_generic_args` just the struct of arguments. -/
def DeclaredName (only : Bool) (s : Str) : Prop :=
  s = c%"Args" ∨ (only = false ∧ (s = c%"UsingReader" ∨ s = c%"HasRetTy"))

instance (only : Bool) (s : Str) : Decidable (DeclaredName only s) := by unfold DeclaredName; infer_instance

end TF.Spec
