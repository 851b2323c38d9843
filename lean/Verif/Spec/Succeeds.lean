import Verif.Spec.Semver
import Verif.Spec.Corpora
import Verif.Spec.Modes

/-! # Specification vocabulary for when the command succeeds -/

namespace TF.Spec

/-- All that the command needs in order to learn which targets it is to work on, namely `sel`. -/
structure Determines (o : Opts) (y : Sys) (s : RSt) (sel : List (Exe × List Str)) : Prop where
  /-- Coverage is not for instrumented runs or type names. -/
  coverage : ∀ ob, o.coverage = some ob → ob = .corpus ∨ ob = .crashes ∨ ob = .hangs ∨ ob = .queue
  /-- Type names cannot be replayed. -/
  replay : ∀ ob, o.replay = some ob → ob ≠ .genericArgs ∧ ob ≠ .implGenericArgs
  /-- The target directory of the package named by the environment can be found. -/
  directory : y.ctx.metadata (y.ctx.env.var c%"TEST_FUZZ_MANIFEST_PATH") ≠ none
  /-- The target directory of the package named by `--manifest-path` can be found. -/
  workspace : y.ctx.metadata o.manifestPath ≠ none
  /-- For coverage, `cargo llvm-cov show-env` prints assignments. -/
  showEnv : o.coverage ≠ none → ∃ ls, y.showEnv = some ls ∧ ∀ l ∈ ls, '=' ∈ l
  /-- The build succeeds, its executables can be listed, and the selection is made from their targets. -/
  targets : ∃ messages exes ets, (y.build s.world.fs).1 = .done messages (some true) ∧
    executablesOf y.metadata messages = .ok exes ∧ executableTargets y.listing exes = .ok ets ∧ sel = selectTargets o ets
  /-- `cargo afl --version` prints a version, and the selected executables were built with versions that go with it and with
  this program's. -/
  versions : ∃ cafl, Semver.cargoAflVersion y.aflOutput = some cafl ∧
    ∀ x ∈ sel, Suits x.1.versions.testFuzzVersion y.ctf ∧ Suits x.1.versions.aflVersion cafl

/-- The target's generation test succeeds and leaves the corpus `d`. -/
def Generates (y : Sys) (x : Exe × Str) (d : Path) : Prop :=
  ∀ acts (cmd : Cmd) fs, cmd.program = x.1.path → cmd.args = [c%"--exact", x.2 ++ c%"_fuzz__::auto_generate"] →
    (y.command acts cmd fs).1 = some true ∧ (y.command acts cmd fs).2 d ≠ none

/-- Each target has a corpus in `fs`, or can make one. -/
def Supplied (y : Sys) (fs : FS) (xs : List (Exe × Str)) : Prop :=
  ∀ x ∈ xs, ∀ d, corpusDirFromTarget y.ctx x.1.name x.2 = .ok d → fs d ≠ none ∨ Generates y x d

/-- The fuzzer, whenever it is run in the foreground, ends well. -/
def FuzzersSucceed (y : Sys) : Prop :=
  ∀ acts (cmd : Cmd) fs, cmd.program = c%"cargo" → [c%"afl", c%"fuzz"] <+: cmd.args → (y.command acts cmd fs).1 = some true

/-- The commands of cargo llvm-cov end well. -/
def LlvmCovSucceeds (y : Sys) : Prop :=
  ∀ acts (cmd : Cmd) fs, cmd.program = c%"cargo" → cmd.args.head? = some c%"llvm-cov" → (y.command acts cmd fs).1 = some true

end TF.Spec
