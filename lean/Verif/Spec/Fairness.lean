import Verif.Spec.Fuzz

/-!
# Specification vocabulary for endless executions of the fuzzing loop
-/

namespace TF.Spec

/-- A fuzzer of target `t` is running, as far as the loop knows. -/
def Running (t : Nat) (l : List LogEv) : Prop := starts t l = ends t l + 1

/-- An execution without end. -/
structure Endless (k : FCfg) (inp : Nat → Inp) (ss : Nat → FState) : Prop where
  start : ss 0 = FState.init k
  step : ∀ i, iterate k (inp i) (ss i) = .ok (.cont (ss (i + 1)))

/-- Events are waited for again and again. -/
def KeepsWaiting (logs : Nat → List LogEv) : Prop :=
  ∀ i, ∃ j, i ≤ j ∧ ∃ rest, logs (j + 1) = logs j ++ .poll :: rest

/-- No fuzzer runs for ever (each has a time limit, and the operating system tells when a pipe is closed): if events are waited
for again and again, the end of every fuzzer is learned. -/
def FuzzersEnd (logs : Nat → List LogEv) : Prop :=
  KeepsWaiting logs → ∀ i t, Running t (logs i) → ∃ j, i ≤ j ∧ ¬ Running t (logs j)

/-- Fuzzers of target `t` are started again and again. -/
def KeepsStarting (t : Nat) (logs : Nat → List LogEv) : Prop :=
  ∀ i, ∃ j, i ≤ j ∧ starts t (logs i) < starts t (logs j)

end TF.Spec
