import Verif.Model.Fuzz

/-!
# Specification vocabulary for the fuzzing loop

Traces of the loop are lists of `LogEv`: `start`, `skip`, `poll`, `ended`.
-/

namespace TF.Spec

/-- `b` consists of complete lines (each text followed by a newline) and a rest without newline; the lines,
without a trailing carriage return, are `lines`. -/
def Output (b : Bytes) (lines : List Str) (rest : Bytes) : Prop :=
  ∃ texts : List Str, b = utf8Encode (texts.flatMap fun t => t ++ ['\n']) ++ rest ∧
    (∀ t ∈ texts, '\n' ∉ t) ∧ (10 : UInt8) ∉ rest ∧
    lines = texts.map fun t => if t.getLast? = some '\r' then t.dropLast else t

def isStart (t : Nat) : LogEv → Bool
  | .start tgt _ _ => tgt == t
  | _ => false

def isEnded (t : Nat) : LogEv → Bool
  | .ended slot _ => slot == t
  | _ => false

def isAnyStart : LogEv → Bool
  | .start .. => true
  | _ => false

def isAnyEnded : LogEv → Bool
  | .ended .. => true
  | _ => false

/-- Number of fuzzers started for target `t`. -/
def starts (t : Nat) (l : List LogEv) : Nat := l.countP (isStart t)

/-- Number of fuzzers of target `t` whose end was noticed. -/
def ends (t : Nat) (l : List LogEv) : Nat := l.countP (isEnded t)

/-- Number of fuzzers started. -/
def allStarts (l : List LogEv) : Nat := l.countP isAnyStart

/-- Number of fuzzers whose end was noticed. -/
def allEnds (l : List LogEv) : Nat := l.countP isAnyEnded

/-- Some fuzzer of target `t` failed, or ended other than by a programmatic abort. -/
def HasFailed (t : Nat) (l : List LogEv) : Prop := .ended t .failed ∈ l ∨ .ended t .notAborted ∈ l

/-- The target looked at, if any. -/
def considered : LogEv → Option Nat
  | .start tgt _ _ => some tgt
  | .skip t => some t
  | _ => none

/-- The target of which a fuzzer was started, if any. -/
def started : LogEv → Option Nat
  | .start tgt _ _ => some tgt
  | _ => none

instance (t : Nat) (l : List LogEv) : Decidable (HasFailed t l) := by unfold HasFailed; infer_instance

/-- Number of targets, out of `n`, that have failed. -/
def failedCount (n : Nat) (l : List LogEv) : Nat := ((List.range n).filter fun t => decide (HasFailed t l)).length

/-- One of the lines says that the time limit was reached. -/
def SaysTimeLimit (lines : List Str) : Prop := ∃ l ∈ lines, c%"Time limit was reached" <:+: l

/-- One of the lines says that the fuzzer ended by itself. -/
def SaysAborted (lines : List Str) : Prop := ∃ l ∈ lines, c%"+++ Testing aborted programmatically +++" <:+: l

/-- The text of a printed line of target `i`. -/
def lineOf (i : Nat) : Printed → Option Str
  | .line j s => if j = i then some s else none
  | _ => none

/-- The target of a heading. -/
def headingOf : Printed → Option Nat
  | .heading i => some i
  | _ => none

/-- What a poll may return: events for fuzzers that are running, at most one for each. -/
def ValidBatch (s : FState) (evs : List Event) : Prop :=
  (evs.map Event.token).Nodup ∧ ∀ ev ∈ evs, ∃ c, s.children[ev.token]? = some (some c)

/-- The states the loop can get into, whatever the environment does. -/
inductive Reach (k : FCfg) : FState → Prop
  | init : Reach k (FState.init k)
  | step {s s' : FState} {inp : Inp} : Reach k s → iterate k inp s = .ok (.cont s') → Reach k s'

/-- The states the loop can get into if the environment's behaviour is restricted. -/
inductive ReachIf (P : Inp → Prop) (k : FCfg) : FState → Prop
  | init : ReachIf P k (FState.init k)
  | step {s s' : FState} {inp : Inp} : ReachIf P k s → P inp → iterate k inp s = .ok (.cont s') → ReachIf P k s'

/-- All fuzzers write ASCII. -/
def WritesAscii (inp : Inp) : Prop :=
  ∀ evs, inp.poll = some evs → ∀ ev ∈ evs, ∀ b, ReadRes.data b ∈ ev.reads → ∀ x ∈ b, x.toNat < 0x80

/-- What is received by reading a fuzzer's output until there is nothing to read: no more data for now (`WouldBlock`, or the
list ends), or the end of the output. -/
inductive Receives : List ReadRes → Bytes → Prop
  | nothing : Receives [] []
  | waits (r : List ReadRes) : Receives (.wouldBlock :: r) []
  | ends (r : List ReadRes) : Receives (.eof :: r) []
  | empty (r : List ReadRes) : Receives (.data [] :: r) []
  | more {b x : Bytes} {r : List ReadRes} : b ≠ [] → Receives r x → Receives (.data b :: r) (b ++ x)

/-- The operations performed for an event succeed (whatever the exit status of the fuzzer) and the fuzzer's output
is UTF-8. -/
def EventFine (s : FState) (ev : Event) : Prop :=
  ev.deregOk = true ∧ (∃ ok, ev.wait = .status ok) ∧
    ∀ c, s.children[ev.token]? = some (some c) →
      ∃ b lines rest, Receives ev.reads b ∧ Output (c.unprinted ++ b) lines rest

/-- With the event, the fuzzer's complete output is `lines` (and a rest that is not a line). -/
def OutputAfter (s : FState) (ev : Event) (lines : List Str) : Prop :=
  ∃ c b rest, s.children[ev.token]? = some (some c) ∧ Receives ev.reads b ∧ Output (c.recv ++ b) lines rest

/-- The event tells that a fuzzer ended successfully by itself, without having reached its time limit. -/
def EndsEarly (s : FState) (ev : Event) : Prop :=
  ev.readClosed = true ∧ ev.deregOk = true ∧ ev.wait = .status true ∧
    ∃ lines, OutputAfter s ev lines ∧ SaysAborted lines ∧ ¬ SaysTimeLimit lines

/-- How the fuzzing loop can end, whatever the environment does (as long as polls are answered properly). -/
inductive LoopResult (k : FCfg) : Out Unit → Prop
  | done {s s' : FState} {inp : Inp} : Reach k s → iterate k inp s = .ok (.done s') → LoopResult k (.ok ())
  | err {s : FState} {inp : Inp} {e : Str} : Reach k s → iterate k inp s = .err e → LoopResult k (.err e)
  | panic {s : FState} {inp : Inp} : Reach k s → (∀ evs, inp.poll = some evs → ValidBatch s evs) →
      iterate k inp s = .panic → LoopResult k .panic
  | exit {s : FState} {inp : Inp} {c : Nat} : Reach k s → (∀ evs, inp.poll = some evs → ValidBatch s evs) →
      iterate k inp s = .exit c → LoopResult k (.exit c)

end TF.Spec
