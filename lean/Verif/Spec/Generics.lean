import Verif.Model.Generics
import Mathlib.Data.List.Forall2

/-!
# Generic parameters and arguments

What rustc asks of the application of an item with parameters, as far as kinds and numbers go (the Rust Reference, "Generic
parameters" and "Paths"; errors E0107, E0403 and E0747).
-/

namespace TF.Spec

open TF

inductive GKind where
  | lifetime | type | const
  deriving DecidableEq

def kindOf : GParam → GKind
  | .ty _ => .type
  | .lifetime _ => .lifetime
  | .const _ => .const

/-- The kind of an argument where the given parameters can be named. -/
inductive ArgKind (scope : List GParam) : GArg → GKind → Prop where
  | lifetime (s : Str) : ArgKind scope (.lifetime s) .lifetime
  /-- The name of a constant parameter. -/
  | const {i : Str} : .const i ∈ scope → ArgKind scope (.ty (.name i)) .const
  | type {t : Ty} : (∀ i, t = .name i → .const i ∉ scope) → ArgKind scope (.ty t) .type
  | other (ts : List Str) : ArgKind scope (.other ts) .const

def IsLifetime (k : GKind) : Prop := k = .lifetime

instance : DecidablePred IsLifetime := fun k => by unfold IsLifetime; infer_instance

/-- Arguments of these kinds fit parameters of those kinds: as many lifetimes, and others of the same kinds in the same order;
in an expression either may be left out altogether. -/
def ArgsFit (params : List GKind) (infer : Bool) (args : List GKind) : Prop :=
  ((args.filter (IsLifetime ·)).length = (params.filter (IsLifetime ·)).length ∨
    (infer = true ∧ args.filter (IsLifetime ·) = [])) ∧
  (args.filter (¬ IsLifetime ·) = params.filter (¬ IsLifetime ·) ∨ (infer = true ∧ args.filter (¬ IsLifetime ·) = []))

/-- The application is accepted. -/
def Accepted (o : AttrOpts) (gs : List GParam) (a : GApp) : Prop :=
  ∃ ks, List.Forall₂ (ArgKind a.scope) a.args ks ∧ ArgsFit ((a.item.params o gs).map kindOf) a.infer ks

/-- What parameters must not have in common: lifetimes have names of their own. -/
def paramName : GParam → Bool × Str
  | .lifetime s => (true, s)
  | .ty i => (false, i)
  | .const i => (false, i)

/-- Parameters that are declared together have different names. -/
def DistinctNames (l : List GParam) : Prop := (l.map paramName).Nodup

/-- Lifetimes come first, as the syntax of Rust requires of parameters and of arguments. -/
def LifetimesLead {α : Type} (lifetime : α → Prop) (l : List α) : Prop :=
  ∃ a b, l = a ++ b ∧ (∀ x ∈ a, lifetime x) ∧ ∀ x ∈ b, ¬ lifetime x

/-- The generic arguments that were given: those for the impl, then those for the function. -/
def givenArgs (o : AttrOpts) : List GArg := o.implGenericArgs.getD [] ++ o.genericArgs.getD []

/-- Types among the arguments, and among the parameters. -/
def numTypeArgs : List GArg → Nat
  | [] => 0
  | .ty _ :: l => numTypeArgs l + 1
  | _ :: l => numTypeArgs l

def numTypes : List GParam → Nat
  | [] => 0
  | .ty _ :: l => numTypes l + 1
  | _ :: l => numTypes l

end TF.Spec
