import Verif.Spec.Corpora

/-! # Specification vocabulary for display, replay and coverage -/

namespace TF.Spec

/-- The fuzzer's own files. -/
def Bookkeeping (n : Str) : Prop := n = c%"README.txt" ∨ n = c%".state"

instance (n : Str) : Decidable (Bookkeeping n) := by unfold Bookkeeping; infer_instance

/-- The stored inputs of a directory in the order of the listing. -/
def inputs (ls : Lister) (fs : FS) (dir : Path) : List Str := (ls fs dir).filter fun n => decide (¬ Bookkeeping n)

/-- What is in a file (`none` for a directory). -/
def contents (fs : FS) (p : Path) : Option Bytes :=
  match fs p with
  | some (.file d) => some d
  | _ => none

/-- The harness runs among the actions: arguments, executable, file, contents. -/
def harnessOf : Act → Option (List Str × Str × Path × Option Bytes)
  | .harness a e p i => some (a, e, p, i)
  | _ => none

/-- The reports among the actions. -/
def reportOf : Act → Option Report
  | .report r => some r
  | _ => none

/-- The messages among the actions. -/
def noteOf : Act → Option Str
  | .note s => some s
  | _ => none

/-- Objects that `cargo test` produces. -/
def FromTests : Object → Prop
  | .corpus | .corpusInstrumented | .genericArgs | .implGenericArgs => True
  | _ => False

/-- No harness changes what is at `p`. -/
def Spared (y : Sys) (p : Path) : Prop := ∀ acts fs, y.leaves acts fs p = fs p

/-- `F` and `G` are the same as far as the directory `d` and what is in it are concerned. -/
def SameAt (y : Sys) (d : Path) (F G : FS) : Prop := F d = G d ∧ y.lister F d = y.lister G d ∧ ∀ n, F (d ++ [n]) = G (d ++ [n])

/-- No harness changes the directory `d`. -/
def Untouched (y : Sys) (d : Path) : Prop := ∀ acts F, SameAt y d (y.leaves acts F) F

/-- What harnesses may make of a file system. -/
inductive Left (y : Sys) : FS → FS → Prop
  | refl {F} : Left y F F
  | run {F G} (acts) : Left y F G → Left y F (y.leaves acts G)

/-- Harnesses can be started, killed and waited for. -/
def HarnessesRun (y : Sys) : Prop := ∀ acts, ∃ wrote closed ok, y.harness acts = .runs wrote closed (some ok) true true

/-- The time that an input may take, in seconds. -/
def TimeLimit (o : Opts) (n : Nat) : Prop := o.timeout = some n ∨ (o.timeout = none ∧ n = 1)

/-- The actions for the inputs `ns`, after the actions `a`: a harness that closes its standard error in time is waited
for; any other is killed and then waited for. It is reported, with its status or as a timeout, and with what it has written
until then, before the next one is started. `lim` is in seconds. -/
inductive Replayed (lim : Nat) (y : Sys) (args : List Str) (exe : Str) (fs : FS) (dir : Path) :
    List Act → List Str → List Act → Prop
  | nil {a} : Replayed lim y args exe fs dir a [] []
  | ended {a n ns w t ok k v l} :
      y.harness (a ++ [.harness args exe (dir ++ [n]) (contents fs (dir ++ [n]))]) = .runs w (some t) (some ok) k v →
      t ≤ 1000 * lim →
      Replayed lim y args exe fs dir
        (a ++ [.harness args exe (dir ++ [n]) (contents fs (dir ++ [n])), .wait, .report ⟨n, w t, .status ok⟩]) ns l →
      Replayed lim y args exe fs dir a (n :: ns)
        (.harness args exe (dir ++ [n]) (contents fs (dir ++ [n])) :: .wait :: .report ⟨n, w t, .status ok⟩ :: l)
  | killed {a n ns w c st l} :
      y.harness (a ++ [.harness args exe (dir ++ [n]) (contents fs (dir ++ [n]))]) = .runs w c st true true →
      (∀ t, c = some t → 1000 * lim < t) →
      Replayed lim y args exe fs dir
        (a ++ [.harness args exe (dir ++ [n]) (contents fs (dir ++ [n])), .kill, .wait,
          .report ⟨n, w (1000 * lim), .timeout⟩]) ns l →
      Replayed lim y args exe fs dir a (n :: ns)
        (.harness args exe (dir ++ [n]) (contents fs (dir ++ [n])) :: .kill :: .wait ::
          .report ⟨n, w (1000 * lim), .timeout⟩ :: l)

/-- Something to say: output, or a bad end. -/
def Failed (r : Report) : Prop := r.verdict = .status false
def TimedOut (r : Report) : Prop := r.verdict = .timeout
def Wrote (r : Report) : Prop := r.buffer ≠ []

/-- What was asked for, in words. -/
inductive Asked (o : Opts) : Str → Prop
  | coverage : o.coverage.isSome → o.display = none → o.replay = none → Asked o c%"generate coverage for"
  | display : o.coverage = none → o.display.isSome → o.replay = none → Asked o c%"display"
  | replay : o.coverage = none → o.display = none → o.replay.isSome → Asked o c%"replay"
  | coverageDisplay : o.coverage.isSome → o.display.isSome → o.replay = none → Asked o c%"generate coverage for/display"
  | coverageReplay : o.coverage.isSome → o.display = none → o.replay.isSome → Asked o c%"generate coverage for/replay"
  | displayReplay : o.coverage = none → o.display.isSome → o.replay.isSome → Asked o c%"display/replay"
  | all : o.coverage.isSome → o.display.isSome → o.replay.isSome → Asked o c%"generate coverage for/display/replay"

/-- The closing message, from the reports. -/
inductive Closing (o : Opts) (rs : List Report) : List Str → Prop
  | nothing {w} : rs = [] → Asked o w → Closing o rs [c%"Nothing to " ++ w ++ c%"."]
  | silent : rs ≠ [] → (∀ r ∈ rs, ¬ Failed r ∧ ¬ TimedOut r ∧ ¬ Wrote r) →
      Closing o rs [c%"No output on stderr detected."]
  | failure : (∃ r ∈ rs, Failed r) → o.coverage = none → o.replay = none →
      Closing o rs [c%"Encountered a failure while not generating coverage and not replaying. A buggy Debug implementation perhaps?"]
  | timeout : (∃ r ∈ rs, TimedOut r) → (∀ r ∈ rs, ¬ Failed r) → o.coverage = none → o.replay = none →
      Closing o rs [c%"Encountered a timeout while not generating coverage and not replaying. A buggy Debug implementation perhaps?"]
  | none : (∃ r ∈ rs, Failed r ∨ TimedOut r ∨ Wrote r) →
      ((∃ r ∈ rs, Failed r ∨ TimedOut r) → o.coverage.isSome ∨ o.replay.isSome) → Closing o rs []

end TF.Spec
