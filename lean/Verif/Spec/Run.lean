import Verif.Model.Run

/-! # Specification vocabulary for whole commands -/

namespace TF.Spec

/-- Objects that exist only as recorded or produced data, without instrumentation being asked for. -/
def Instrumented : Object → Prop
  | .corpusInstrumented | .crashesInstrumented | .hangsInstrumented | .queueInstrumented => True
  | _ => False

/-- Objects that hold the names of types rather than inputs. -/
def TypeNames : Object → Prop
  | .genericArgs | .implGenericArgs => True
  | _ => False

/-- The objects given make sense: coverage needs inputs and is not instrumented for fuzzing; replay needs inputs. -/
def ObjectsValid (o : Opts) : Prop :=
  (∀ ob, o.coverage = some ob → ¬ Instrumented ob ∧ ¬ TypeNames ob) ∧ (∀ ob, o.replay = some ob → ¬ TypeNames ob)

/-- Actions that only look: versions, building, listing. -/
def Looks : Act → Prop
  | .aflVersion | .build .. | .listTests _ | .printTargets _ => True
  | _ => False

/-- A harness is run, or a command, or the fuzzing loop, or stored data is changed. -/
def Acts : Act → Prop
  | .command _ | .harness .. | .fuzzLoop .. | .consolidate _ | .reset _ => True
  | _ => False

end TF.Spec
