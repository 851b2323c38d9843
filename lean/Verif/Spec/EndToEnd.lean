import Verif.Spec.Instrument
import Verif.Model.Opts

/-!
# Specification vocabulary: from tests to the corpus

Only the types of the model are used here, not the model of the macro or its interpreter.
-/

namespace TF.Spec

variable {V R : Type}

/-- The calls of instrumented functions that user code makes, in order. -/
def made : Prog V R → List (Target V × V)
  | .ret _ | .panic | .resume | .die => []
  | .touch _ k => made k
  | .call t v body k => (t, v) :: (made body ++
      match plain body with
      | .ok r => made (k (some r))
      | .panic => made (k none)
      | _ => [])

/-- User code leaves alone what is at or below `d`. -/
def Leaves (d : Path) : Prog V R → Prop
  | .ret _ | .panic | .resume | .die => True
  | .touch f k => (∀ fs q, d <+: q → f fs q = fs q) ∧ Leaves d k
  | .call _ _ body k => Leaves d body ∧ ∀ x, Leaves d (k x)

/-- Names that can be used for directories. -/
structure Nameable (d : Decl) : Prop where
  marker : MarkerFree d
  krate : NoSlash d.krate
  target : NoSlash (targetName d)
  colon : ':' ∉ d.krate

/-- Among the calls `l` there is one of the target `d` – whichever way it is instantiated – that has to be recorded,
with arguments that are serialised to `b`. `decl` says where targets are declared. -/
def Recorded (decl : Target V → Decl) (e : Env) (test : Bool) (d : Decl) (l : List (Target V × V)) (b : Bytes) : Prop :=
  ∃ x ∈ l, Due e test x.1.macro_.enableInProduction ∧ x.1.macro_.onlyGenericArgs = false ∧
    qualifiedName (decl x.1) = qualifiedName d ∧ x.1.ser x.2 = .ok b

/-- The artifacts of a run with an id (TEST_FUZZ_ID, for instance) are kept apart from others by a suffix. -/
def withId (id : Option Str) (base : Str) : Str :=
  match id with
  | none => base
  | some i => base ++ '_' :: i

/-- Where an object of the target `name` is kept, below the target directory. -/
def objectPath (id : Option Str) (name : Str) : Object → Path
  | .corpus | .corpusInstrumented => [withId id c%"corpus", name]
  | .crashes | .crashesInstrumented => [c%"afl", withId id c%"output", name, c%"default", c%"crashes"]
  | .hangs | .hangsInstrumented => [c%"afl", withId id c%"output", name, c%"default", c%"hangs"]
  | .queue | .queueInstrumented => [c%"afl", withId id c%"output", name, c%"default", c%"queue"]
  | .genericArgs => [withId id c%"generic_args", name]
  | .implGenericArgs => [withId id c%"impl_generic_args", name]

/-- The object an invocation is about. -/
def Chosen (o : Opts) (ob : Object) : Prop :=
  o.coverage = some ob ∨ (o.coverage = none ∧ o.display = some ob) ∨
    (o.coverage = none ∧ o.display = none ∧ o.replay = some ob)

end TF.Spec
