import Verif.Model.Ui
import Verif.Model.Opts

/-!
# The fuzzing loop: cargo-test-fuzz/src/lib.rs:1073-1117, 1204-1414

The loop is a step function. What the operating system and the fuzzers do – whether a process can be
started, which events a poll returns, what a pipe contains, how a process ended – is input (`Inp`).
The state has two records that the code does not keep: `log` (what the loop did) and, per child, `recv`
and `lines` (all bytes received and lines processed). No decision depends on them.
-/

namespace TF

/-! ## Reading a fuzzer's output -/

/-- One `read` of a child's output: cargo-test-fuzz/src/lib.rs:1094-1099. -/
inductive ReadRes where
  | data (b : Bytes)
  | eof
  | wouldBlock
  | error
  deriving DecidableEq

/-- cargo-test-fuzz/src/lib.rs:1092-1101: the read loop; collects the data. An empty read is `Ok(0)`. The end
of the list stands for `WouldBlock`. The 4096 byte limit of one read is not imposed. -/
def readLoop : List ReadRes → Out Bytes
  | [] => .ok []
  | .data b :: r => if b = [] then .ok [] else do
    let rest ← readLoop r
    .ok (b ++ rest)
  | .eof :: _ => .ok []
  | .wouldBlock :: _ => .ok []
  | .error :: _ => .err c%"read error"

/-- cargo-test-fuzz/src/lib.rs:1102-1108: split after the last newline; `none` if there is none. -/
def cutLastNl (b : Bytes) : Option (Bytes × Bytes) :=
  match b.reverse.findIdx? (· == 10) with
  | some i => some (b.take (b.length - i), b.drop (b.length - i))
  | none => none

/-- cargo-test-fuzz/src/lib.rs:1102-1108: the text to process and the remainder. -/
def takeText (unprinted : Bytes) : Out (Str × Bytes) :=
  match cutLastNl unprinted with
  | some (buf, rest) =>
    match utf8Decode buf with
    | some s => .ok (s, rest)
    | none => .err c%"invalid utf-8"
  | none => .ok ([], unprinted)

def stripCr (l : Str) : Str := if l.getLast? = some '\r' then l.dropLast else l

/-- `str::lines`. -/
def strLinesAux (acc : Str) : Str → List Str
  | [] => if acc = [] then [] else [acc]
  | c :: r => if c = '\n' then stripCr acc :: strLinesAux [] r else strLinesAux (acc ++ [c]) r

def strLines (s : Str) : List Str := strLinesAux [] s

/-! ## State -/

/-- cargo-test-fuzz/src/lib.rs:1079-1088 `Child`, without process handle and pipe; `buffer` holds the UTF-8
bytes of the lines. `recv` and `lines` are not in the code. -/
structure FChild where
  unprinted : Bytes := []
  buffer : List Bytes := []
  timeLimit : Bool := false
  aborted : Bool := false
  recv : Bytes := []
  lines : List Str := []
  deriving DecidableEq

/-- How a fuzzer ended: exit status not zero; no programmatic abort seen; time limit reached; other programmatic
abort. -/
inductive Ending where
  | failed | notAborted | timeLimit | early
  deriving DecidableEq

/-- What the loop did. -/
inductive LogEv where
  /-- A fuzzer was started for target number `tgt` in slot `slot`. -/
  | start (tgt slot : Nat) (first : Bool)
  /-- A target was considered but not started. -/
  | skip (slot : Nat)
  /-- `poll` was called. -/
  | poll
  /-- The end of the fuzzer in a slot was noticed. -/
  | ended (slot : Nat) (e : Ending)
  deriving DecidableEq

/-- Standard output without user interface; `line` also records whose line it is. -/
inductive Printed where
  | heading (i : Nat)
  | line (i : Nat) (s : Str)
  deriving DecidableEq

/-- The constants of the loop: cargo-test-fuzz/src/lib.rs:1229-1252. -/
structure FCfg where
  targets : List Str
  nCpus : Nat
  noUi : Bool
  exitCode : Bool
  vis : Bytes → Nat

def FCfg.n (k : FCfg) : Nat := k.targets.length

/-- cargo-test-fuzz/src/lib.rs:1236. -/
def FCfg.sufficient (k : FCfg) : Bool := k.nCpus ≥ k.n

/-- The variables of the loop: cargo-test-fuzz/src/lib.rs:1254-1268. `iter` is the number of elements taken
from the cyclic iterator. -/
structure FState where
  nChildren : Nat
  iTask : Nat
  iter : Nat
  children : List (Option FChild)
  prev : Nat
  failed : List Nat
  log : List LogEv
  printed : List Printed

/-- cargo-test-fuzz/src/lib.rs:1254-1268. -/
def FState.init (k : FCfg) : FState :=
  ⟨0, 0, 0, List.replicate k.n none, k.n, [], [], []⟩

inductive Wait where
  | error
  | status (success : Bool)
  deriving DecidableEq

/-- One event of a poll, with the results of the operations performed on the child then. -/
structure Event where
  token : Nat
  reads : List ReadRes
  readClosed : Bool
  deregOk : Bool
  wait : Wait

/-- What the environment supplies to one iteration. -/
structure Inp where
  term : Option (Nat × Nat)
  spawnOk : Bool
  poll : Option (List Event)

/-- Result of one iteration. -/
inductive Next where
  | cont (s : FState)
  | done (s : FState)

/-! ## One event -/

/-- cargo-test-fuzz/src/lib.rs:1357-1369: the loop over the lines of one event. -/
def processLines (k : FCfg) (i : Nat) : List Str → FChild × Nat × List Printed → FChild × Nat × List Printed
  | [], x => x
  | line :: ls, (c, prev, printed) =>
    let c := if contains line c%"Time limit was reached" then { c with timeLimit := true } else c
    let c := if contains line c%"+++ Testing aborted programmatically +++" then { c with aborted := true } else c
    let printed := if k.noUi && prev != i then printed ++ [.heading i] else printed
    -- `print_line`, lines 1111-1117
    let (c, printed) :=
      if k.noUi then (c, printed ++ [.line i line])
      else ({ c with buffer := c.buffer ++ [utf8Encode line] }, printed)
    processLines k i ls (c, i, printed)

/-- cargo-test-fuzz/src/lib.rs:1348-1370: read and process the lines of one event. -/
def processRead (k : FCfg) (ev : Event) (s : FState) : Out (FState × FChild) :=
  if ev.token < k.n then
    match s.children[ev.token]? with
    | some (some c) => do
      let b ← readLoop ev.reads
      let (text, rest) ← takeText (c.unprinted ++ b)
      let (c', prev, printed) := processLines k ev.token (strLines text)
        ({ c with unprinted := rest, recv := c.recv ++ b, lines := c.lines ++ strLines text }, s.prev, s.printed)
      .ok ({ s with children := s.children.set ev.token (some c'), prev := prev, printed := printed }, c')
    | _ => .panic
  else .panic

/-- Insertion into the set of failed targets. -/
def insertFailed (i : Nat) (l : List Nat) : List Nat := if i ∈ l then l else l ++ [i]

/-- cargo-test-fuzz/src/lib.rs:1372-1411: the child's output was closed. -/
def reap (k : FCfg) (ev : Event) (c : FChild) (s : FState) : Out FState :=
  let s := { s with children := s.children.set ev.token none }
  if !ev.deregOk then .err c%"Could not deregister receiver"
  else if s.nChildren = 0 then .panic
  else
    let s := { s with nChildren := s.nChildren - 1 }
    match ev.wait with
    | .error => .err c%"`wait` failed"
    | .status ok =>
      if !ok then
        .ok { s with failed := insertFailed ev.token s.failed, log := s.log ++ [.ended ev.token .failed] }
      else if !c.aborted then
        .ok { s with failed := insertFailed ev.token s.failed, log := s.log ++ [.ended ev.token .notAborted] }
      else if k.exitCode && !c.timeLimit then .exit 1
      else .ok { s with log := s.log ++ [.ended ev.token (if c.timeLimit then .timeLimit else .early)] }

/-- `itertools::join(lines, "\n")` on the bytes of the lines. -/
def joinLines : List Bytes → Bytes
  | [] => []
  | [x] => x
  | x :: y :: r => x ++ 10 :: joinLines (y :: r)

/-- cargo-test-fuzz/src/lib.rs:1387-1392: what the warning about a fuzzer that failed shows as its standard output. The
rest of the warning is in `Verif.Model.Warnings`. -/
def warningOutput (c : FChild) : Bytes := joinLines c.buffer

/-- cargo-test-fuzz/src/lib.rs:1347-1411: one event. -/
def processEvent (k : FCfg) (ev : Event) (s : FState) : Out FState := do
  let (s, c) ← processRead k ev s
  if ev.readClosed then reap k ev c s else .ok s

/-- cargo-test-fuzz/src/lib.rs:1347: the loop over the events. -/
def processEvents (k : FCfg) : List Event → FState → Out FState
  | [], s => .ok s
  | ev :: evs, s => do
    let s ← processEvent k ev s
    processEvents k evs s

/-! ## One iteration -/

/-- Write the buffers that `refresh` returns back into the children. -/
def putBuffers : List (Option FChild) → List (List Bytes) → List (Option FChild)
  | [], _ => []
  | none :: cs, bs => none :: putBuffers cs bs
  | some c :: cs, b :: bs => some { c with buffer := b } :: putBuffers cs bs
  | some c :: cs, [] => some c :: putBuffers cs []

/-- The children present, with the names of their targets. -/
def shown (k : FCfg) (s : FState) : List (Bytes × List Bytes) :=
  (k.targets.zip s.children).filterMap fun x => x.2.map fun c => (utf8Encode x.1, c.buffer)

/-- cargo-test-fuzz/src/lib.rs:1271: `Child::refresh`. -/
def refreshState (k : FCfg) (term : Option (Nat × Nat)) (s : FState) : Out FState := do
  let (_, bufs) ← refresh k.vis k.noUi term s.nChildren (shown k s)
  .ok { s with children := putBuffers s.children bufs }

/-- cargo-test-fuzz/src/lib.rs:1278-1337: the body of the `if` that starts fuzzers. -/
def schedule (k : FCfg) (spawnOk : Bool) (s : FState) : Out FState :=
  if k.n = 0 then .panic
  else
    let tgt := s.iter % k.n
    let s := { s with iter := s.iter + 1 }
    let slot := s.iTask % k.n
    if slot ∈ s.failed then .ok { s with iTask := s.iTask + 1, log := s.log ++ [.skip slot] }
    else
      match s.children[slot]? with
      | none => .panic
      | some (some _) => do
        assert (!k.sufficient)
        .ok { s with iTask := s.iTask + 1, log := s.log ++ [.skip slot] }
      | some none => do
        let first := decide (s.iTask < k.n)
        assert (first || !k.sufficient)
        if spawnOk then
          .ok { s with
            children := s.children.set slot (some {})
            nChildren := s.nChildren + 1
            iTask := s.iTask + 1
            log := s.log ++ [.start tgt slot first] }
        else .err c%"Could not spawn"

/-- cargo-test-fuzz/src/lib.rs:1278: the condition for starting fuzzers. -/
def wantsTask (k : FCfg) (s : FState) : Bool :=
  s.nChildren < k.nCpus && (s.iTask < k.n || !k.sufficient)

/-- cargo-test-fuzz/src/lib.rs:1270-1413: one iteration of the loop. -/
def iterate (k : FCfg) (inp : Inp) (s : FState) : Out Next := do
  let s ← refreshState k inp.term s
  if s.failed.length = k.n then .err c%"All targets failed to start"
  else if wantsTask k s then do
    let s ← schedule k inp.spawnOk s
    .ok (.cont s)
  else if s.nChildren = 0 then do
    assert k.sufficient
    assert (decide (s.iTask ≥ k.n))
    .ok (.done s)
  else
    match inp.poll with
    | none => .err c%"`poll` failed"
    | some evs => do
      let s ← processEvents k evs { s with log := s.log ++ [.poll] }
      .ok (.cont s)

/-- The whole loop on a stream of inputs, for `fuel` iterations; `none` if it has not ended by then. -/
def fuzzLoop (k : FCfg) (inp : Nat → Inp) : Nat → Nat → FState → Option (Out FState)
  | 0, _, _ => none
  | fuel + 1, t, s =>
    match iterate k (inp t) s with
    | .ok (.cont s') => fuzzLoop k inp fuel (t + 1) s'
    | .ok (.done s') => some (.ok s')
    | .err e => some (.err e)
    | .panic => some .panic
    | .exit c => some (.exit c)
    | .crash => some .crash

/-- cargo-test-fuzz/src/lib.rs:1229-1252: number of cpus and the checks before the loop. `num_cpus::get() - 1`
underflows only if there is no cpu. -/
def cpusToUse (o : Opts) (numCpus : Nat) : Nat := min (o.cpus.getD (numCpus - 1)) numCpus

def fuzzSetup (o : Opts) (numCpus : Nat) (targets : List Str) (vis : Bytes → Nat) : Out FCfg := do
  let nCpus := cpusToUse o numCpus
  ensure (decide (nCpus ≥ 1)) c%"Number of cpus must be greater than zero"
  let k : FCfg := ⟨targets, nCpus, o.noUi, o.exitCode, vis⟩
  if !k.sufficient then
    ensure o.maxTotalTime.isNone c%"--max-total-time cannot be used when number of cpus is less than number of fuzz targets"
  .ok k

end TF
