import Verif.Spec.Run

/-! # Specification vocabulary for several objects in one command -/

namespace TF.Spec

/-- The targets are built without instrumentation for fuzzing because of what they are run on. -/
def BuiltPlain (o : Opts) : Prop :=
  o.list = true ∨ o.coverage ≠ none ∨ (∃ ob, o.display = some ob ∧ ¬ Instrumented ob) ∨
    ∃ ob, o.replay = some ob ∧ ¬ Instrumented ob

/-- Two invocations that differ at most in the objects of `--display` and `--replay`. -/
structure SameButObjects (o o' : Opts) : Prop where
  rest : { o' with display := o.display, replay := o.replay } = o
  display : o.display = none ↔ o'.display = none
  replay : o.replay = none ↔ o'.replay = none

end TF.Spec
