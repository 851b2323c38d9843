import Verif.Spec.EndToEnd
import Verif.Spec.Storage
import Verif.Spec.Replay
import Verif.Spec.Run

/-! # Specification vocabulary: what an invocation is asked to do -/

namespace TF.Spec

/-- The five things that an invocation can do. -/
inductive Mode where
  /-- Print the targets. -/
  | listing
  /-- Build only. -/
  | building
  /-- Consolidate or remove stored data. -/
  | storing
  /-- Generate coverage, display or replay. -/
  | replaying
  | fuzzing
  deriving DecidableEq

/-- Something is to be done with stored data as a whole. -/
def AsksStorage (o : Opts) : Prop :=
  o.consolidate = true ∨ o.consolidateAll = true ∨ o.reset = true ∨ o.resetAll = true

/-- Stored inputs are to be run or shown. -/
def AsksReplay (o : Opts) : Prop := o.coverage ≠ none ∨ o.display ≠ none ∨ o.replay ≠ none

/-- What is done, if several things are asked for. -/
inductive Wants (o : Opts) : Mode → Prop
  | listing : o.list = true → Wants o .listing
  | building : o.list = false → o.noRun = true → Wants o .building
  | storing : o.list = false → o.noRun = false → AsksStorage o → Wants o .storing
  | replaying : o.list = false → o.noRun = false → ¬ AsksStorage o → AsksReplay o → Wants o .replaying
  | fuzzing : o.list = false → o.noRun = false → ¬ AsksStorage o → ¬ AsksReplay o → Wants o .fuzzing

/-- What each mode may do besides looking for the targets. -/
inductive Belongs (o : Opts) : Mode → Act → Prop
  | aflVersion {m} : Belongs o m .aflVersion
  | build {m args quiet} : Belongs o m (.build args quiet)
  | listTests {m exe} : Belongs o m (.listTests exe)
  | targets {l} : Belongs o .listing (.printTargets l)
  /-- With `--reset-all`, `--consolidate` has no effect. -/
  | consolidate {l} : (o.consolidateAll = true ∨ (o.consolidate = true ∧ o.resetAll = false)) →
      Belongs o .storing (.consolidate l)
  | reset {l} : Belongs o .storing (.reset l)
  | heading {t d} : Belongs o .replaying (.heading t d)
  | harness {a e f i} : Belongs o .replaying (.harness a e f i)
  | kill : Belongs o .replaying .kill
  | wait : Belongs o .replaying .wait
  | report {r} : Belongs o .replaying (.report r)
  | note {s} : Belongs o .replaying (.note s)
  | coverage {c l} : o.coverage ≠ none → c.program = c%"cargo" → c.args = c%"llvm-cov" :: l →
      Belongs o .replaying (.command c)
  | fuzzNote {s} : Belongs o .fuzzing (.note s)
  | fuzzCommand {c} : Belongs o .fuzzing (.command c)
  | fuzzLoop {l n} : Belongs o .fuzzing (.fuzzLoop l n)

/-- The headings among the actions. -/
def titleOf : Act → Option Str
  | .heading t _ => some t
  | _ => none

instance (ob : Object) : Decidable (TypeNames ob) := by unfold TypeNames; split <;> infer_instance

/-- The qualified name of a target, from the name of its crate and its name in the crate. -/
def qualified (x : Exe × Str) : Str := x.1.name.map (fun c => if c = '-' then '_' else c) ++ c%"::" ++ x.2

/-- Harness runs for the stored inputs of a target's object. -/
def harnessRuns (ls : Lister) (fs : FS) (dir : Path) (x : Exe × Str) : List (List Str × Str × Path × Option Bytes) :=
  (inputs ls fs dir).map fun n =>
    ([c%"--exact", x.2 ++ c%"_fuzz__::entry", c%"--nocapture"], x.1.path, dir ++ [n], contents fs (dir ++ [n]))

/-- The state in which the stored inputs are read: as the build left it, or, with coverage, as a command of cargo llvm-cov
left that. -/
def Prepared (o : Opts) (y : Sys) (s : RSt) (F : FS) : Prop :=
  F = (y.build s.world.fs).2 ∨ ∃ acts c l, o.coverage ≠ none ∧ c.program = c%"cargo" ∧ c.args = c%"llvm-cov" :: l ∧
    F = (y.command acts c (y.build s.world.fs).2).2

end TF.Spec
