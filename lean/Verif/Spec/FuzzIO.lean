import Verif.Spec.Fuzz
import Verif.Model.FuzzIO

/-! # Specification vocabulary for the fuzzing loop with its commands and files -/

namespace TF.Spec

/-- Running the loop for any time, beginning with the files `w₀`: the state, the files, and the fuzzers that have been started,
each with the files at that time. In between, fuzzers change files as `fz` allows. -/
inductive LoopReach (fz : FS → FS → Prop) (o : Opts) (y : Sys) (llvm : List (Str × Str)) (k : FCfg) (ets : List (Exe × Str))
    (w₀ : World) : FState → World → List (Cmd × FS) → Prop
  | init : LoopReach fz o y llvm k ets w₀ (FState.init k) w₀ []
  | fuzzers {s w l F} : LoopReach fz o y llvm k ets w₀ s w l → fz w.fs F → LoopReach fz o y llvm k ets w₀ s ⟨F, w.tick⟩ l
  | quiet {s w l inp s' w'} : LoopReach fz o y llvm k ets w₀ s w l →
      iterateIO o y llvm k ets inp s y.plan w = (.ok (.cont s', none), w') → LoopReach fz o y llvm k ets w₀ s' w' l
  | started {s w l inp s' w' c} : LoopReach fz o y llvm k ets w₀ s w l →
      iterateIO o y llvm k ets inp s y.plan w = (.ok (.cont s', some c), w') →
      LoopReach fz o y llvm k ets w₀ s' w' (l ++ [(c, w'.fs)])

/-- The loop, begun with the files `F`, ends without error, leaving the files `G`; it has started these fuzzers. -/
def LoopEnds (fz : FS → FS → Prop) (o : Opts) (y : Sys) (llvm : List (Str × Str)) (k : FCfg) (ets : List (Exe × Str))
    (F G : FS) (l : List (Cmd × FS)) : Prop :=
  ∃ t t' s s' w inp, LoopReach fz o y llvm k ets ⟨F, t⟩ s w l ∧
    iterateIO o y llvm k ets inp s y.plan w = (.ok (.done s', none), ⟨G, t'⟩)

/-- The command runs this target: it ends in the test of the target. -/
def RunsTarget (c : Cmd) (x : Exe × Str) : Prop :=
  [c%"--", x.1.path, c%"--exact", x.2 ++ c%"_fuzz__::entry"] <:+ c.args

end TF.Spec
