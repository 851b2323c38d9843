import Verif.Model.Runtime
import Verif.Model.Targets

/-!
# `consolidate` and `reset`: cargo-test-fuzz/src/lib.rs:767-831, and their dispatch (331-347)
-/

namespace TF

/-- Names that consolidation and replay skip: cargo-test-fuzz/src/lib.rs:788, 910. -/
def skipName (n : Str) : Bool := n == c%"README.txt" || n == c%".state"

/-- cargo-test-fuzz/src/lib.rs:780-803: the loop over the entries of one directory. -/
def consolidateEntries (corpus dir : Path) : List Str → IOm Unit
  | [] => pure ()
  | n :: ns =>
    if skipName n then consolidateEntries corpus dir ns
    else do
      let data ← readFile (dir ++ [n])
      writeData corpus data
      consolidateEntries corpus dir ns

/-- cargo-test-fuzz/src/lib.rs:780-803: one directory. -/
def consolidateDir (ls : Lister) (corpus dir : Path) : IOm Unit := do
  let names ← readDir ls dir
  consolidateEntries corpus dir names

/-- cargo-test-fuzz/src/lib.rs:773-804: one target. -/
def consolidateTarget (c : Ctx) (ls : Lister) (krate target : Str) : IOm Unit := do
  let corpus ← IOm.lift (corpusDirFromTarget c krate target)
  let crashes ← IOm.lift (crashesDirFromTarget c krate target)
  let hangs ← IOm.lift (hangsDirFromTarget c krate target)
  let queue ← IOm.lift (queueDirFromTarget c krate target)
  consolidateDir ls corpus crashes
  consolidateDir ls corpus hangs
  consolidateDir ls corpus queue

/-- cargo-test-fuzz/src/lib.rs:773: the loop over the targets of one executable. -/
def consolidateTargets (c : Ctx) (ls : Lister) (krate : Str) : List Str → IOm Unit
  | [] => pure ()
  | t :: ts => do
    consolidateTarget c ls krate t
    consolidateTargets c ls krate ts

/-- cargo-test-fuzz/src/lib.rs:770-805: the loop over the executables. -/
def consolidateLoop (o : Opts) (c : Ctx) (ls : Lister) : List (Exe × List Str) → IOm Unit
  | [] => pure ()
  | (e, ts) :: r => do
    IOm.lift (assert (o.consolidateAll || ts.length == 1))
    consolidateTargets c ls e.name ts
    consolidateLoop o c ls r

/-- cargo-test-fuzz/src/lib.rs:767-808 `consolidate`. -/
def consolidate (o : Opts) (c : Ctx) (ls : Lister) (ets : List (Exe × List Str)) : IOm Unit := do
  IOm.lift (assert (o.consolidateAll || ets.length == 1))
  consolidateLoop o c ls ets

/-- cargo-test-fuzz/src/lib.rs:816-826: one target. -/
def resetTarget (c : Ctx) (krate target : Str) : IOm Unit := do
  let out ← IOm.lift (outputDirFromTarget c krate target)
  let ex ← pathExists out
  if !ex then pure ()
  else removeDirAll out

def resetTargets (c : Ctx) (krate : Str) : List Str → IOm Unit
  | [] => pure ()
  | t :: ts => do
    resetTarget c krate t
    resetTargets c krate ts

/-- cargo-test-fuzz/src/lib.rs:813-828: the loop over the executables. -/
def resetLoop (o : Opts) (c : Ctx) : List (Exe × List Str) → IOm Unit
  | [] => pure ()
  | (e, ts) :: r => do
    IOm.lift (assert (o.resetAll || ts.length == 1))
    resetTargets c e.name ts
    resetLoop o c r

/-- cargo-test-fuzz/src/lib.rs:810-831 `reset`. -/
def reset (o : Opts) (c : Ctx) (ets : List (Exe × List Str)) : IOm Unit := do
  IOm.lift (assert (o.resetAll || ets.length == 1))
  resetLoop o c ets

/-- cargo-test-fuzz/src/lib.rs:331-347: the part of `run_without_exit_code` that handles the four
options; called only if one of them is given. -/
def storage (o : Opts) (c : Ctx) (ls : Lister) (ets : List (Exe × List Str)) : IOm Unit :=
  if o.consolidateAll || o.resetAll then do
    if o.consolidateAll then consolidate o c ls ets
    reset o c ets
  else do
    if o.consolidate then consolidate o c ls ets
    reset o c ets

end TF
