import Verif.Model.FuzzIO

/-!
# What the fuzzing loop writes to standard error: cargo-test-fuzz/src/lib.rs:1371-1408
-/

namespace TF

/-- cargo-test-fuzz/src/lib.rs:1386-1404: the warning about a fuzzer that has ended. `exec` is the text kept for each child (line
1307) as `{:?}` shows it. -/
def warning (k : FCfg) (exec : Nat → Str) (ev : Event) (c : FChild) : Option Bytes :=
  match ev.wait with
  | .error => none
  | .status ok =>
    if !ok then
      some (utf8Encode (c%"Warning: Command failed for target " ++ k.targets.getD ev.token [] ++ c%": " ++ exec ev.token ++
        c%"\nstdout: ```\n") ++ warningOutput c ++ utf8Encode c%"\n```\n")
    else if !c.aborted then
      some (utf8Encode (c%"Warning: Could not find \"Testing aborted programmatically\" in command output for target " ++
        k.targets.getD ev.token [] ++ c%": " ++ exec ev.token ++ c%"\n"))
    else none

/-- cargo-test-fuzz/src/lib.rs:1348-1409: what is written for one event. The warnings come after `deregister`, `n_children -= 1` and
`wait`, all of which can end the loop. -/
def eventWarnings (k : FCfg) (exec : Nat → Str) (ev : Event) (s : FState) : List Bytes :=
  match processRead k ev s with
  | .ok (s, c) => if ev.readClosed && ev.deregOk && s.nChildren != 0 then (warning k exec ev c).toList else []
  | _ => []

/-- cargo-test-fuzz/src/lib.rs:1348: what is written for the events of a poll, until one of them ends the loop. -/
def batchWarnings (k : FCfg) (exec : Nat → Str) : List Event → FState → List Bytes
  | [], _ => []
  | ev :: evs, s => eventWarnings k exec ev s ++
    match processEvent k ev s with
    | .ok s => batchWarnings k exec evs s
    | _ => []

/-- cargo-test-fuzz/src/lib.rs:1270-1413: what is written in one iteration, also if it ends the loop. -/
def iterateWarnings (k : FCfg) (exec : Nat → Str) (inp : Inp) (s : FState) : List Bytes :=
  match refreshState k inp.term s with
  | .ok s =>
    if s.failed.length = k.n || wantsTask k s || s.nChildren = 0 then []
    else
      match inp.poll with
      | some evs => batchWarnings k exec evs { s with log := s.log ++ [.poll] }
      | none => []
  | _ => []

/-- cargo-test-fuzz/src/lib.rs:1323-1332: the text of the command is kept with the child, which is kept under the target's number. -/
def keepExec (k : FCfg) (s : FState) (c : Cmd) (ex : Nat → Option Cmd) : Nat → Option Cmd :=
  fun i => if i = s.iTask % k.n then some c else ex i

end TF
