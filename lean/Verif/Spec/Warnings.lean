import Verif.Spec.FuzzIO
import Verif.Model.Warnings

/-! # Specification vocabulary for the warnings of the fuzzing loop -/

namespace TF.Spec

/-- The end of a fuzzer that counts as a failure. -/
def failing : LogEv → Option (Nat × Ending)
  | .ended t .failed => some (t, .failed)
  | .ended t .notAborted => some (t, .notAborted)
  | _ => none

/-- The text of a warning. With the user interface, it has some of the lines that the fuzzer wrote. -/
def WarningText (noUi : Bool) (e : Ending) (name exec : Str) (text : Bytes) : Prop :=
  (e = .failed ∧ ∃ lines : List Str, (noUi = true → lines = []) ∧
    text = utf8Encode (c%"Warning: Command failed for target " ++ name ++ c%": " ++ exec ++ c%"\nstdout: ```\n" ++
      joinWith c%"\n" lines ++ c%"\n```\n")) ∨
  (e = .notAborted ∧
    text = utf8Encode (c%"Warning: Could not find \"Testing aborted programmatically\" in command output for target " ++ name ++
      c%": " ++ exec ++ c%"\n"))

/-- Running the loop for any time, as `LoopReach`, with the commands of the children and with what was written to standard
error. `shown` is how commands are shown. -/
inductive Warned (fz : FS → FS → Prop) (o : Opts) (y : Sys) (llvm : List (Str × Str)) (k : FCfg) (ets : List (Exe × Str))
    (w₀ : World) (shown : Cmd → Str) : FState → World → List (Cmd × FS) → (Nat → Option Cmd) → List Bytes → Prop
  | init : Warned fz o y llvm k ets w₀ shown (FState.init k) w₀ [] (fun _ => none) []
  | fuzzers {s w l ex ws F} : Warned fz o y llvm k ets w₀ shown s w l ex ws → fz w.fs F →
      Warned fz o y llvm k ets w₀ shown s ⟨F, w.tick⟩ l ex ws
  | quiet {s w l ex ws inp s' w'} : Warned fz o y llvm k ets w₀ shown s w l ex ws →
      iterateIO o y llvm k ets inp s y.plan w = (.ok (.cont s', none), w') →
      Warned fz o y llvm k ets w₀ shown s' w' l ex (ws ++ iterateWarnings k (fun i => ((ex i).map shown).getD []) inp s)
  | started {s w l ex ws inp s' w' c} : Warned fz o y llvm k ets w₀ shown s w l ex ws →
      iterateIO o y llvm k ets inp s y.plan w = (.ok (.cont s', some c), w') →
      Warned fz o y llvm k ets w₀ shown s' w' (l ++ [(c, w'.fs)]) (keepExec k s c ex)
        (ws ++ iterateWarnings k (fun i => ((ex i).map shown).getD []) inp s)

/-- The command `c` of the list is the last one in it that runs the target. -/
def LastRun (l : List (Cmd × FS)) (x : Exe × Str) (c : Cmd) : Prop :=
  ∃ pre F post, l = pre ++ (c, F) :: post ∧ RunsTarget c x ∧ ∀ d ∈ post, ¬ RunsTarget d.1 x

end TF.Spec
