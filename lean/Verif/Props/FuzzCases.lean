import Verif.Props.FuzzExit

/-! # Concrete runs of the fuzzing loop

They show that the hypotheses of the theorems about the loop (C34–C43) are met by non-trivial states. -/

namespace TF

open Spec

/-- The state after a list of inputs. -/
def runInps (k : FCfg) : List Inp → FState → Option FState
  | [], s => some s
  | i :: is, s =>
    match iterate k i s with
    | .ok (.cont s') => runInps k is s'
    | _ => none

theorem reach_runInps {P : Inp → Prop} {k : FCfg} {is : List Inp} {s s' : FState} (hs : ReachIf P k s)
    (hP : ∀ i ∈ is, P i) (h : runInps k is s = some s') : ReachIf P k s' := by
  induction is generalizing s with
  | nil => cases h; exact hs
  | cons i is ih =>
    unfold runInps at h
    split at h
    · next s1 h1 => exact ih (.step hs (hP i (by simp)) h1) (fun j hj => hP j (by simp [hj])) h
    · cases h

/-- Nothing to report, fuzzers can be started. -/
def quiet : Inp := ⟨none, true, some []⟩

def abortedLine : Bytes := utf8Encode c%"+++ Testing aborted programmatically +++\n"
def limitLine : Bytes := utf8Encode c%"Time limit was reached\n"

/-- The fuzzer in slot `i` writes `b` and ends. -/
def endEv (i : Nat) (b : Bytes) (ok : Bool) : Event := ⟨i, [.data b], true, true, .status ok⟩

/-- The fuzzer in slot `i` writes `b`. -/
def outEv (i : Nat) (b : Bytes) : Event := ⟨i, [.data b, .wouldBlock], false, true, .error⟩

def evs (l : List Event) : Inp := ⟨none, true, some l⟩

/-- Three targets, two cpus. -/
def k3 : FCfg := ⟨[c%"a", c%"b", c%"m::c"], 2, true, false, List.length⟩

/-- Two targets, two cpus, exit codes wanted. -/
def k2 : FCfg := ⟨[c%"a", c%"b"], 2, true, true, List.length⟩

/-- Both fuzzers fail at once; the third is started. -/
def livelockInps : List Inp := [quiet, quiet, evs [endEv 0 [] false, endEv 1 [] true], quiet]

def livelockLog : List LogEv :=
  [.start 0 0 true, .start 1 1 true, .poll, .ended 0 .failed, .ended 1 .notAborted, .start 2 2 true]

theorem livelock_reached : ∃ s, Reach k3 s ∧ s.log = livelockLog := by
  have h : (runInps k3 livelockInps (FState.init k3)).map FState.log = some livelockLog := by decide +kernel
  obtain ⟨s, h1, h2⟩ := Option.map_eq_some_iff.mp h
  exact ⟨s, (reach_runInps (P := fun _ => True) .init (fun _ _ => trivial) h1).reach, h2⟩

/-- C38 fails in a state that the loop can reach: three targets, two cpus, two targets failed, one fuzzer running;
from there the loop never waits again. -/
theorem C38_livelock_reachable : ∃ k s, Reach k s ∧ Stuck k s.log ∧ ∀ inp : Nat → Inp,
    ∃ ss : Nat → FState, ss 0 = s ∧ ∀ i, iterate k (inp i) (ss i) = .ok (.cont (ss (i + 1))) ∧
      ∃ t, (ss (i + 1)).log = (ss i).log ++ [.skip t] := by
  obtain ⟨s, hr, hl⟩ := livelock_reached
  have hst : Stuck k3 s.log := by
    rw [hl]
    exact ⟨by decide, by decide, by decide, by decide⟩
  exact ⟨k3, s, hr, hst, C38_livelock k3 rfl s hr hst⟩

/-- Time slicing: the first two run for their slice, then the third and the first again. -/
def slicingInps : List Inp :=
  [quiet, quiet, evs [outEv 1 (utf8Encode c%"hello\nworl"), outEv 0 (utf8Encode c%"x\n")],
   evs [endEv 1 (utf8Encode c%"d\r\n" ++ limitLine ++ abortedLine) true], quiet,
   evs [endEv 0 (limitLine ++ abortedLine) true], quiet]

def slicingLog : List LogEv :=
  [.start 0 0 true, .start 1 1 true, .poll, .poll, .ended 1 .timeLimit, .start 2 2 true, .poll,
   .ended 0 .timeLimit, .start 0 0 false]

def slicingPrinted : List Printed :=
  [.heading 1, .line 1 c%"hello", .heading 0, .line 0 c%"x", .heading 1, .line 1 c%"world",
   .line 1 c%"Time limit was reached", .line 1 c%"+++ Testing aborted programmatically +++",
   .heading 0, .line 0 c%"Time limit was reached", .line 0 c%"+++ Testing aborted programmatically +++"]

theorem slicing_reached : ∃ s, ReachIf WritesAscii k3 s ∧ s.log = slicingLog ∧ s.printed = slicingPrinted := by
  have h : (runInps k3 slicingInps (FState.init k3)).map (fun s => (s.log, s.printed)) =
      some (slicingLog, slicingPrinted) := by decide +kernel
  obtain ⟨s, h1, h2⟩ := Option.map_eq_some_iff.mp h
  simp only [Prod.mk.injEq] at h2
  refine ⟨s, reach_runInps .init ?_ h1, h2⟩
  have key : ∀ i ∈ slicingInps, ∀ evs ∈ i.poll.toList, ∀ ev ∈ evs, ∀ r ∈ ev.reads,
      (match r with | .data b => b | _ => []).all (fun x => decide (x.toNat < 0x80)) = true := by decide +kernel
  intro i hi evs he ev hev b hb x hx
  have := key i hi evs (by simp [he]) ev hev _ hb
  simp only [List.all_eq_true, decide_eq_true_eq] at this
  exact this x hx

/-- Non-vacuity of C34, C37, C42, C43: a reachable state with two fuzzers, a restarted target, output of two fuzzers
interleaved, and a line split over two reads. -/
example : ∃ s, Reach k3 s ∧ s.log.filterMap started = [0, 1, 2, 0] ∧ allStarts s.log = allEnds s.log + 2 ∧
    (∃ a b c, s.log = a ++ .start 0 0 true :: b ++ .start 0 0 false :: c) ∧
    ∃ pre post, s.printed = pre ++ .line 1 c%"world" :: post := by
  obtain ⟨s, hr, hl, hp⟩ := slicing_reached
  refine ⟨s, hr.reach, ?_, ?_, ?_, ?_⟩
  · rw [hl]; decide
  · rw [hl]; decide
  · rw [hl]; exact ⟨[], (slicingLog.drop 1).take 7, [], rfl⟩
  · rw [hp]; exact ⟨slicingPrinted.take 5, slicingPrinted.drop 6, rfl⟩

/-- Non-vacuity of C36 and C41 (normal end): both fuzzers are started, one fails, the other reaches its time limit,
the loop ends. -/
theorem limit_run : ∃ s, Reach k2 s ∧ s.log = [.start 0 0 true, .start 1 1 true, .poll, .ended 0 .failed,
    .ended 1 .timeLimit] ∧ ∃ s', iterate k2 quiet s = .ok (.done s') := by
  have h : (runInps k2 [quiet, quiet, evs [endEv 0 [] false, endEv 1 (limitLine ++ abortedLine) true]]
      (FState.init k2)).map (fun s => (s.log, match iterate k2 quiet s with | .ok (.done _) => true | _ => false)) =
      some ([.start 0 0 true, .start 1 1 true, .poll, .ended 0 .failed, .ended 1 .timeLimit], true) := by
    decide +kernel
  obtain ⟨s, h1, h2⟩ := Option.map_eq_some_iff.mp h
  simp only [Prod.mk.injEq] at h2
  refine ⟨s, (reach_runInps (P := fun _ => True) .init (fun _ _ => trivial) h1).reach, h2.1, ?_⟩
  have h3 := h2.2
  split at h3
  · next s' he => exact ⟨s', he⟩
  · cases h3

/-- Non-vacuity of C41 (status 1): the first of two fuzzers finds a crash (ends by itself, no time limit). -/
example : ∃ s, Reach k2 s ∧ iterate k2 (evs [endEv 0 abortedLine true]) s = .exit 1 := by
  have h : (runInps k2 [quiet, quiet] (FState.init k2)).map
      (fun s => match iterate k2 (evs [endEv 0 abortedLine true]) s with | .exit c => some c | _ => none) =
      some (some 1) := by decide +kernel
  obtain ⟨s, h1, h2⟩ := Option.map_eq_some_iff.mp h
  refine ⟨s, (reach_runInps (P := fun _ => True) .init (fun _ _ => trivial) h1).reach, ?_⟩
  split at h2
  · next c he => cases h2; exact he
  · cases h2

/-- Non-vacuity of C40 (all failed): both fuzzers fail, and the command ends with the error. -/
example : ∃ s, Reach k2 s ∧ (∀ t < k2.targets.length, HasFailed t s.log) ∧
    iterate k2 quiet s = .err c%"All targets failed to start" := by
  have h : (runInps k2 [quiet, quiet, evs [endEv 0 [] false, endEv 1 [] true]]
      (FState.init k2)).map (fun s => s.log) =
      some [.start 0 0 true, .start 1 1 true, .poll, .ended 0 .failed, .ended 1 .notAborted] := by
    decide +kernel
  obtain ⟨s, h1, h2⟩ := Option.map_eq_some_iff.mp h
  have hr := (reach_runInps (P := fun _ => True) .init (fun _ _ => trivial) h1).reach
  have ha : ∀ t < k2.targets.length, HasFailed t s.log := by rw [h2]; decide
  obtain ⟨s1, hs1, -⟩ := refreshState_noUi (k := k2) rfl quiet.term s
  exact ⟨s, hr, ha, (C40_all_failed k2 s hr quiet ⟨s1, hs1⟩).mpr ha⟩

end TF
