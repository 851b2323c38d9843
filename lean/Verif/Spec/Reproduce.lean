import Verif.Spec.Replay
import Verif.Spec.EndToEnd

/-!
# Specification vocabulary: reproducing what a fuzzer found
-/

namespace TF.Spec

variable {V R : Type}

/-- Given `b`, a panic gets out of the target, or the process ends; nothing of the instrumentation is involved. -/
def Escapes (t : Target V) (body : V → Prog V R) (b : Bytes) : Prop :=
  ∃ v, t.de b = some v ∧ ∀ r, plain (body v) ≠ .ok r

/-- Given `b`, a panic begins, but the target catches it and returns. -/
def Swallowed (t : Target V) (body : V → Prog V R) (b : Bytes) : Prop :=
  ∃ v r, t.de b = some v ∧ raises (body v) = true ∧ plain (body v) = .ok r

/-- A process in which a harness is run on `b`, with the environment `e`; it is a test executable, and what happens at a
panic is what libtest or std have arranged. -/
structure HarnessProcess (e : Env) (b : Bytes) (c : Setting) (s : Proc V R) : Prop where
  env : c.ctx.env = e
  stdin : c.stdin = b
  test : c.test = true
  hook : s.hook ≠ .abort

/-- The status of harness processes is what becomes of the test: it is a success if the test returns. `e` is the environment
in which they are started. -/
def Genuine (y : Sys) (args : List Str) (exe : Str) (e : Env) (t : Target V) (body : V → Prog V R) : Prop :=
  ∀ acts p b w cl ok k v, y.harness (acts ++ [.harness args exe p (some b)]) = .runs w cl (some ok) k v →
    ∃ (c : Setting) (s : Proc V R), HarnessProcess e b c s ∧ (ok = true ↔ ∃ f, (runHarness c t body s).1 = .ok f)

/-- None of the switches that select what a harness is for is on. -/
def NoPurpose (e : Env) : Prop :=
  ¬ On e c%"TEST_FUZZ_COVERAGE" ∧ ¬ On e c%"TEST_FUZZ_DISPLAY" ∧ ¬ On e c%"TEST_FUZZ_REPLAY"

/-- The fuzzer ran the target on `b`, in the environment `e`, and the process did not survive. -/
def Died (e : Env) (t : Target V) (body : V → Prog V R) (b : Bytes) : Prop :=
  ∃ (c : Setting) (s : Proc V R), HarnessProcess e b c s ∧ ∀ f, (runHarness c t body s).1 ≠ .ok f

end TF.Spec
