import Verif.Model.Instrument
import Verif.Spec.Naming
import Verif.Spec.Recording

/-!
# Specification vocabulary for instrumented functions and harnesses

Only the types of the model are used here, not the model of the macro or its interpreter.
-/

namespace TF.Spec

variable {V R : Type}

/-- A call has to be recorded. -/
def Due (e : Env) (test inProduction : Bool) : Prop :=
  (test = true ∧ ¬ On e c%"TEST_FUZZ") ∨ (test = false ∧ inProduction = true ∧ On e c%"TEST_FUZZ_WRITE")

/-- Something was recorded, or was to be. -/
def IsRecord : Ev V R → Prop
  | .recorded _ | .recordFailed _ => True
  | _ => False

/-- The calls that harnesses made. -/
def calls : List (Ev V R) → List V
  | [] => []
  | .call v :: l => v :: calls l
  | _ :: l => calls l

/-- How often the hint was printed. -/
def hints : List (Ev V R) → Nat
  | [] => 0
  | .hint :: l => hints l + 1
  | _ :: l => hints l

/-- The outcome of user code if nothing is instrumented. -/
def plain : Prog V R → Out R
  | .ret r => .ok r
  | .panic => .panic
  | .resume => .panic
  | .die => .crash
  | .touch _ k => plain k
  | .call _ _ body k =>
    match plain body with
    | .ok r => plain (k (some r))
    | .panic => plain (k none)
    | x => x

/-- A panic begins while user code runs, whether or not it is caught. -/
def raises : Prog V R → Bool
  | .ret _ => false
  | .panic => true
  | .resume => false
  | .die => false
  | .touch _ k => raises k
  | .call _ _ body k =>
    raises body ||
      match plain body with
      | .ok r => raises (k (some r))
      | .panic => raises (k none)
      | _ => false

/-- `data` has been written to `dir`, under its SHA-1, and nothing else has changed. -/
def Stored (dir : Path) (data : Bytes) (w w' : World) : Prop :=
  ∃ name : Str, HasFile w'.fs (dir ++ [name]) data ∧ hexDecode name = some (Sha1.digest data) ∧
    ChangesOnly (dir ++ [name]) w.fs w'.fs

/-- The process fuzzes: no other purpose is switched on. -/
def Fuzzing (e : Env) : Prop :=
  On e c%"TEST_FUZZ" ∧ ¬ On e c%"TEST_FUZZ_COVERAGE" ∧ ¬ On e c%"TEST_FUZZ_DISPLAY" ∧ ¬ On e c%"TEST_FUZZ_REPLAY"

/-- The process replays or measures coverage. -/
def Replaying (e : Env) : Prop :=
  On e c%"TEST_FUZZ" ∧ (On e c%"TEST_FUZZ_COVERAGE" ∨ On e c%"TEST_FUZZ_REPLAY")

/-- The process only displays. -/
def Displaying (e : Env) : Prop :=
  On e c%"TEST_FUZZ" ∧ On e c%"TEST_FUZZ_DISPLAY" ∧ ¬ On e c%"TEST_FUZZ_COVERAGE" ∧ ¬ On e c%"TEST_FUZZ_REPLAY"

/-- The target does not survive an input: it decodes to arguments with which a panic begins, gets out of the target, or
the process ends. -/
def Fatal (t : Target V) (body : V → Prog V R) (b : Bytes) : Prop :=
  ∃ v, t.de b = some v ∧ (raises (body v) = true ∨ ∀ r, plain (body v) ≠ .ok r)

/-- A result was shown. -/
def Shows : Ev V R → Prop
  | .showArgs _ _ | .showRet _ _ => True
  | _ => False

end TF.Spec
