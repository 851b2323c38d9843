import Verif.Lemmas.FuzzOutput
import Verif.Props.FuzzSched
import Verif.Props.Ui

/-! # Output of the fuzzers and end of the command: C35 (user interface), C40, C41, C42, C43 -/

namespace TF

open Spec

/-! ## C42 -/

/-- Feeding a fuzzer's output in chunks: for each chunk what `read_lines` and `lines` do
(cargo-test-fuzz/src/lib.rs:1091-1109, 1357). -/
def feed (unprinted : Bytes) : List Bytes → Out (List Str × Bytes)
  | [] => .ok ([], unprinted)
  | b :: bs => do
    let (text, rest) ← takeText (unprinted ++ b)
    let (ls, r) ← feed rest bs
    .ok (strLines text ++ ls, r)

theorem feed_iff (u : Bytes) (hu : (10 : UInt8) ∉ u) (chunks : List Bytes) (lines : List Str) (rest : Bytes) :
    feed u chunks = .ok (lines, rest) ↔ Output (u ++ chunks.flatten) lines rest := by
  have hu0 : Output u [] u := ⟨[], by simp [utf8Encode_nil], by simp, hu, rfl⟩
  induction chunks generalizing u lines with
  | nil =>
    simp only [feed, List.flatten_nil, List.append_nil]
    constructor
    · intro h; cases h; exact hu0
    · intro h
      obtain ⟨rfl, rfl⟩ := output_unique hu0 h
      rfl
  | cons b bs ih =>
    constructor
    · intro h
      unfold feed at h
      cases h1 : takeText (u ++ b) with
      | ok p =>
        obtain ⟨text, r1⟩ := p
        rw [h1, Out.ok_bind] at h
        have o1 := takeText_ok h1
        have hr1 : (10 : UInt8) ∉ r1 := by obtain ⟨_, _, _, h, _⟩ := o1; exact h
        simp only at h
        cases h2 : feed r1 bs with
        | ok q =>
          obtain ⟨ls, r2⟩ := q
          rw [h2, Out.ok_bind] at h
          simp only [Out.ok.injEq, Prod.mk.injEq] at h
          obtain ⟨rfl, rfl⟩ := h
          have o2 := (ih r1 hr1 ls ⟨[], by simp [utf8Encode_nil], by simp, hr1, rfl⟩).mp h2
          have := output_append o1 o2
          rw [List.flatten_cons, ← List.append_assoc]
          exact this
        | _ => rw [h2] at h; cases h
      | _ => rw [h1] at h; cases h
    · intro h
      rw [List.flatten_cons, ← List.append_assoc] at h
      obtain ⟨l1, r1, l2, o1, o2, rfl⟩ := output_split h
      obtain ⟨s, hs, hl⟩ := takeText_of_output o1
      have hr1 : (10 : UInt8) ∉ r1 := by obtain ⟨_, _, _, h, _⟩ := o1; exact h
      have := (ih r1 hr1 l2 ⟨[], by simp [utf8Encode_nil], by simp, hr1, rfl⟩).mpr o2
      unfold feed
      rw [hs, Out.ok_bind]
      simp only
      rw [this, Out.ok_bind, hl]

/-- However the output is cut into chunks (also inside characters and line ends), the lines processed are the
complete lines of the whole output, each once and in order, and what is kept back is the rest after the last
newline; reading fails only if the complete lines are not UTF-8. -/
theorem C42_chunking (chunks : List Bytes) (lines : List Str) (rest : Bytes) :
    feed [] chunks = .ok (lines, rest) ↔ Output chunks.flatten lines rest := by
  simpa using feed_iff [] (by simp) chunks lines rest

theorem C42_independent_of_chunking (chunks chunks' : List Bytes) (h : chunks.flatten = chunks'.flatten)
    (r : List Str × Bytes) : feed [] chunks = .ok r ↔ feed [] chunks' = .ok r := by
  obtain ⟨lines, rest⟩ := r
  rw [C42_chunking, C42_chunking, h]

/-- In the loop: at any moment the lines processed for a running fuzzer are the complete lines of what was received
from it so far, and the bytes kept back are the rest. -/
theorem C42_in_the_loop (k : FCfg) (s : FState) (h : Reach k s) (t : Nat) (c : FChild)
    (hc : s.children[t]? = some (some c)) : Output c.recv c.lines c.unprinted :=
  (h.oinv.2 t c hc).out

example : feed [] [[195], [169, 13], [10, 98], [10, 99]] = .ok ([['é'], ['b']], [99]) := by decide +kernel
example : Output [195, 169, 13, 10, 98, 10, 99] [['é'], ['b']] [99] :=
  ⟨[['é', '\r'], ['b']], by decide +kernel, by decide, by decide, by decide⟩

/-! ## C43 -/

/-- The indications of a running fuzzer are set exactly by its own lines. -/
theorem C43_indications (k : FCfg) (s : FState) (h : Reach k s) (t : Nat) (c : FChild)
    (hc : s.children[t]? = some (some c)) :
    (c.timeLimit = true ↔ SaysTimeLimit c.lines) ∧ (c.aborted = true ↔ SaysAborted c.lines) :=
  ⟨(h.oinv.2 t c hc).tl, (h.oinv.2 t c hc).ab⟩

/-- Without user interface every line is printed under the heading of its target: the last heading before it is
that target's. -/
theorem C43_under_own_heading (k : FCfg) (s : FState) (h : Reach k s) (pre post : List Printed) (i : Nat) (l : Str)
    (he : s.printed = pre ++ .line i l :: post) : (pre.filterMap headingOf).getLast? = some i :=
  h.oinv.1.under pre i l post he

/-- Without user interface the lines printed for a target end with all lines of its running fuzzer, in order. -/
theorem C43_all_lines_printed (k : FCfg) (hn : k.noUi = true) (s : FState) (h : Reach k s) (t : Nat) (c : FChild)
    (hc : s.children[t]? = some (some c)) : c.lines <:+ s.printed.filterMap (lineOf t) :=
  ((h.oinv.2 t c hc).noui hn).1

/-- With user interface the lines shown for a fuzzer are its own last lines. -/
theorem C43_ui_shows_own_lines (k : FCfg) (hn : k.noUi = false) (s : FState) (h : Reach k s) (t : Nat) (c : FChild)
    (hc : s.children[t]? = some (some c)) : c.buffer <:+ c.lines.map utf8Encode :=
  (h.oinv.2 t c hc).ui hn

/-! ## C35: with user interface -/

theorem Spec.ReachIf.reach {P k s} (h : ReachIf P k s) : Reach k s := by
  induction h with
  | init => exact .init
  | step _ _ h ih => exact .step ih h

theorem readLoop_mem {r : List ReadRes} {b : Bytes} (h : readLoop r = .ok b) :
    ∀ x ∈ b, ∃ d, ReadRes.data d ∈ r ∧ x ∈ d := by
  induction r generalizing b with
  | nil => cases h; simp
  | cons a r ih =>
    cases a with
    | data d =>
      unfold readLoop at h
      split at h
      · cases h; simp
      · cases hr : readLoop r with
        | ok b' =>
          rw [hr, Out.ok_bind] at h
          cases h
          intro x hx
          rcases List.mem_append.mp hx with hx | hx
          · exact ⟨d, by simp, hx⟩
          · obtain ⟨d', h1, h2⟩ := ih hr x hx
            exact ⟨d', by simp [h1], h2⟩
        | _ => rw [hr] at h; cases h
    | _ => unfold readLoop at h; cases h <;> simp

def RecvAscii (s : FState) : Prop := ∀ (i : Nat) (c : FChild), s.children[i]? = some (some c) → Ascii c.recv

theorem processLines_recv (k : FCfg) (i : Nat) (ls : List Str) (c : FChild) (prev : Nat) (printed : List Printed) :
    (processLines k i ls (c, prev, printed)).1.recv = c.recv := by
  induction ls generalizing c prev printed with
  | nil => rfl
  | cons line ls ih =>
    simp only [processLines]
    split <;> rw [ih] <;> simp only [] <;> split <;> split <;> simp_all

theorem RecvAscii.processEvent {k : FCfg} {ev : Event} {s s' : FState} (hr : RecvAscii s)
    (ha : ∀ b, ReadRes.data b ∈ ev.reads → ∀ x ∈ b, x.toNat < 0x80) (h : processEvent k ev s = .ok s') :
    RecvAscii s' := by
  unfold TF.processEvent at h
  cases h1 : processRead k ev s with
  | ok p =>
    obtain ⟨s1, c1⟩ := p
    rw [h1, Out.ok_bind] at h
    simp only at h
    obtain ⟨c0, b, text, rest, prev', printed', hc, hlt, hb, -, hpl, rfl⟩ := processRead_occ h1
    have hrec : Ascii c1.recv := by
      have := processLines_recv k ev.token (strLines text)
        { c0 with unprinted := rest, recv := c0.recv ++ b, lines := c0.lines ++ strLines text } s.prev s.printed
      rw [hpl] at this
      simp only at this
      rw [this]
      intro x hx
      rcases List.mem_append.mp hx with hx | hx
      · exact hr _ _ hc x hx
      · obtain ⟨d, h2, h3⟩ := readLoop_mem hb x hx
        exact ha d h2 x h3
    have hs1 : ∀ (i : Nat) (c : FChild), (s.children.set ev.token (some c1))[i]? = some (some c) → Ascii c.recv := by
      intro i c hi
      by_cases hx : ev.token = i
      · subst hx
        rw [List.getElem?_set_self (List.getElem?_eq_some_iff.mp hc).1] at hi
        cases hi; exact hrec
      · rw [List.getElem?_set_ne hx] at hi
        exact hr i c hi
    split at h
    · obtain ⟨e, -, rfl⟩ := reap_ok h
      intro i c hi
      simp only at hi
      by_cases hx : ev.token = i
      · subst hx
        rw [List.getElem?_set] at hi
        simp only [if_true] at hi
        split at hi <;> simp at hi
      · rw [List.getElem?_set_ne hx] at hi
        exact hs1 i c hi
    · cases h; exact hs1
  | _ => rw [h1] at h; cases h

theorem RecvAscii.processEvents {k : FCfg} {evs : List Event} {s s' : FState} (hr : RecvAscii s)
    (ha : ∀ ev ∈ evs, ∀ b, ReadRes.data b ∈ ev.reads → ∀ x ∈ b, x.toNat < 0x80)
    (h : processEvents k evs s = .ok s') : RecvAscii s' := by
  induction evs generalizing s with
  | nil => cases h; exact hr
  | cons ev evs ih =>
    unfold TF.processEvents at h
    cases h1 : TF.processEvent k ev s with
    | ok s1 =>
      rw [h1, Out.ok_bind] at h
      exact ih (RecvAscii.processEvent hr (ha ev (by simp)) h1) (fun ev hev => ha ev (by simp [hev])) h
    | _ => rw [h1] at h; cases h

theorem schedule_children {k : FCfg} {s s' : FState} {b : Bool} (h : schedule k b s = .ok s') :
    ∀ (i : Nat) (c : FChild), s'.children[i]? = some (some c) → s.children[i]? = some (some c) ∨ c = {} := by
  unfold TF.schedule at h
  split at h
  · cases h
  · simp only at h
    split at h
    · cases h; exact fun i c h => Or.inl h
    · split at h
      · cases h
      · cases hs : k.sufficient with
        | true => rw [hs] at h; cases h
        | false =>
          simp only [hs, assert, Bool.not_false, if_true, Out.ok_bind] at h
          cases h; exact fun i c h => Or.inl h
      · next hc =>
        cases ha : (decide (s.iTask < k.n) || !k.sufficient) with
        | false => rw [ha] at h; cases h
        | true =>
          rw [ha] at h
          simp only [assert, if_true, Out.ok_bind] at h
          cases b with
          | false => cases h
          | true =>
            simp only [if_true] at h
            cases h
            intro i c hc'
            simp only at hc'
            by_cases hx : s.iTask % k.n = i
            · subst hx
              rw [List.getElem?_set_self (List.getElem?_eq_some_iff.mp hc).1] at hc'
              simp only [Option.some.injEq] at hc'
              exact Or.inr hc'.symm
            · rw [List.getElem?_set_ne hx] at hc'
              exact Or.inl hc'

theorem Spec.ReachIf.ascii {k : FCfg} {s : FState} (h : ReachIf WritesAscii k s) : RecvAscii s := by
  induction h with
  | init =>
    intro i c h
    have := List.mem_of_getElem? h
    simp only [FState.init, List.mem_replicate] at this
    cases this.2
  | @step s s' inp hr hp h ih =>
    have hrefresh : ∀ s1, refreshState k inp.term s = .ok s1 → RecvAscii s1 := by
      intro s1 h1 i c hc
      have hl : s.children.length = k.targets.length := by
        have := hr.reach.inv.len; simpa [occ, FCfg.n] using this
      obtain ⟨c0, b, e1, -, rfl⟩ := refreshState_child hl h1 hc
      exact ih i c0 e1
    obtain ⟨s1, h1, -, ⟨hw, h2⟩ | ⟨hw, hn, evs, hpoll, h2⟩⟩ := iterate_cont h
    · intro i c hc
      rcases schedule_children h2 i c hc with h | rfl
      · exact hrefresh s1 h1 i c h
      · intro x hx; cases hx
    · exact RecvAscii.processEvents (s := { s1 with log := s1.log ++ [.poll] }) (hrefresh s1 h1) (hp evs hpoll) h2

theorem ascii_encode_mem {s t : Str} (h : Ascii (utf8Encode s)) (hsub : ∀ c ∈ t, c ∈ s) : Ascii (utf8Encode t) := by
  intro x hx
  unfold utf8Encode at hx h
  rw [List.mem_flatMap] at hx
  obtain ⟨c, hc, hx⟩ := hx
  exact h x (List.mem_flatMap.mpr ⟨c, hsub c hc, hx⟩)

theorem output_ascii {b rest : Bytes} {lines : List Str} (h : Output b lines rest) (ha : Ascii b) :
    ∀ l ∈ lines, Ascii (utf8Encode l) := by
  obtain ⟨ts, rfl, -, -, rfl⟩ := h
  intro l hl
  obtain ⟨t, ht, rfl⟩ := List.mem_map.mp hl
  have ha' : Ascii (utf8Encode (ts.flatMap fun t => t ++ ['\n'])) := fun x hx => ha x (List.mem_append_left _ hx)
  refine ascii_encode_mem ha' fun c hc => ?_
  refine List.mem_flatMap.mpr ⟨t, ht, List.mem_append_left _ ?_⟩
  split at hc
  · exact List.mem_of_mem_dropLast hc
  · exact hc

/-- Drawing succeeds on a terminal as long as target names and fuzzers' output are ASCII. -/
theorem refreshState_ascii (k : FCfg) (hm : VisMono k.vis) (hnames : ∀ t ∈ k.targets, Ascii (utf8Encode t)) (s : FState)
    (h : ReachIf WritesAscii k s) (term : Option (Nat × Nat)) (hterm : term ≠ none) :
    ∃ s', refreshState k term s = .ok s' := by
  obtain ⟨⟨rows, cols⟩, ht⟩ := Option.ne_none_iff_exists'.mp hterm
  have hl : s.children.length = k.targets.length := by
    have := h.reach.inv.len; simpa [occ, FCfg.n] using this
  have hlen : (shown k s).length = s.nChildren := by
    have h1 : (shown k s).length = ((shown k s).map Prod.snd).length := by simp
    rw [h1, shown_bufs k s hl, (C34_running_count k s h.reach).1]
    generalize s.children = cs
    induction cs with
    | nil => rfl
    | cons c cs ih => cases c <;> simp [ih]
  have hascii : ∀ c ∈ shown k s, Ascii c.1 ∧ ∀ l ∈ c.2, Ascii l := by
    intro c hc
    unfold shown at hc
    obtain ⟨⟨t, o⟩, hz, he⟩ := List.mem_filterMap.mp hc
    obtain ⟨ch, rfl, rfl⟩ := Option.map_eq_some_iff.mp he
    refine ⟨hnames _ (List.of_mem_zip hz).1, fun l hlm => ?_⟩
    obtain ⟨i, hi, hgi⟩ := List.mem_iff_getElem.mp (List.of_mem_zip hz).2
    have hci : s.children[i]? = some (some ch) := by rw [List.getElem?_eq_getElem hi, hgi]
    have hinv := h.reach.oinv.2 i ch hci
    have hrec := h.ascii i ch hci
    have hlines := output_ascii hinv.out hrec
    cases hn : k.noUi with
    | true => rw [(hinv.noui hn).2] at hlm; cases hlm
    | false =>
      have := (hinv.ui hn).subset hlm
      obtain ⟨x, hx, rfl⟩ := List.mem_map.mp this
      exact hlines x hx
  obtain ⟨r, hr⟩ := C44_refresh_succeeds k.vis hm k.noUi rows cols (shown k s) hascii
  unfold refreshState
  rw [ht, ← hlen, hr]
  exact ⟨_, rfl⟩

/-- With a user interface on a terminal, nothing panics as long as target names and fuzzers' output are ASCII. -/
theorem C35_no_panic_with_ui (k : FCfg) (hcpu : 1 ≤ k.nCpus) (hm : VisMono k.vis)
    (hnames : ∀ t ∈ k.targets, Ascii (utf8Encode t)) (s : FState) (h : ReachIf WritesAscii k s) (inp : Inp)
    (hv : ∀ evs, inp.poll = some evs → ValidBatch s evs) (hterm : inp.term ≠ none) : iterate k inp s ≠ .panic := by
  refine C35_loop_does_not_panic k hcpu s h.reach inp hv ?_
  obtain ⟨s', hs⟩ := refreshState_ascii k hm hnames s h inp.term hterm
  rw [hs]
  simp

/-! ## C40 -/

theorem readLoop_err {r : List ReadRes} {e : Str} (h : readLoop r = .err e) : e = c%"read error" := by
  induction r with
  | nil => cases h
  | cons a r ih =>
    cases a with
    | data d =>
      unfold readLoop at h
      split at h
      · cases h
      · cases hr : readLoop r with
        | err e' => rw [hr] at h; cases h; exact ih hr
        | _ => rw [hr] at h; cases h
    | _ => unfold readLoop at h; cases h <;> rfl

theorem takeText_err {u : Bytes} {e : Str} (h : takeText u = .err e) : e = c%"invalid utf-8" := by
  unfold takeText at h
  split at h
  · split at h
    · cases h
    · cases h; rfl
  · cases h

def ioErrors : List Str :=
  [c%"read error", c%"invalid utf-8", c%"Could not deregister receiver", c%"`wait` failed"]

theorem processEvent_err {k : FCfg} {ev : Event} {s : FState} {e : Str} (h : processEvent k ev s = .err e) :
    e ∈ ioErrors := by
  unfold processEvent at h
  cases h1 : processRead k ev s with
  | ok p =>
    obtain ⟨s1, c⟩ := p
    rw [h1, Out.ok_bind] at h
    simp only at h
    split at h
    · unfold reap at h
      simp only at h
      repeat' split at h
      all_goals first | (cases h; done) | (cases h; simp [ioErrors])
    · cases h
  | err e' =>
    rw [h1] at h
    cases h
    unfold processRead at h1
    split at h1
    · split at h1
      · next c hc =>
        cases h2 : readLoop ev.reads with
        | err e2 => rw [h2] at h1; cases h1; rw [readLoop_err h2]; simp [ioErrors]
        | ok b =>
          rw [h2, Out.ok_bind] at h1
          cases h3 : takeText (c.unprinted ++ b) with
          | err e3 => rw [h3] at h1; cases h1; rw [takeText_err h3]; simp [ioErrors]
          | ok p => rw [h3, Out.ok_bind] at h1; cases h1
          | _ => rw [h3] at h1; cases h1
        | _ => rw [h2] at h1; cases h1
      · cases h1
    · cases h1
  | _ => rw [h1] at h; cases h

theorem processEvents_err {k : FCfg} {evs : List Event} {s : FState} {e : Str} (h : processEvents k evs s = .err e) :
    e ∈ ioErrors := by
  induction evs generalizing s with
  | nil => cases h
  | cons ev evs ih =>
    unfold processEvents at h
    cases h1 : processEvent k ev s with
    | ok s1 => rw [h1, Out.ok_bind] at h; exact ih h
    | err e' => rw [h1] at h; cases h; exact processEvent_err h1
    | _ => rw [h1] at h; cases h

theorem schedule_err {k : FCfg} {b : Bool} {s : FState} {e : Str} (h : schedule k b s = .err e) :
    e = c%"Could not spawn" ∧ b = false := by
  unfold schedule at h
  split at h
  · cases h
  · simp only at h
    split at h
    · cases h
    · split at h
      · cases h
      · cases hs : k.sufficient with
        | true => rw [hs] at h; cases h
        | false => simp [hs, assert] at h
      · cases ha : (decide (s.iTask < k.n) || !k.sufficient) with
        | false => rw [ha] at h; cases h
        | true =>
          rw [ha] at h
          simp only [assert, if_true, Out.ok_bind] at h
          split at h
          · cases h
          · next hb => cases h; exact ⟨rfl, by simpa using hb⟩

/-- The command fails with "All targets failed to start" exactly if all targets have failed. -/
theorem C40_all_failed (k : FCfg) (s : FState) (h : Reach k s) (inp : Inp)
    (hui : ∃ s1, refreshState k inp.term s = .ok s1) :
    iterate k inp s = .err c%"All targets failed to start" ↔ ∀ t < k.targets.length, HasFailed t s.log := by
  obtain ⟨s1, h1⟩ := hui
  obtain ⟨bufs, hs1⟩ := refreshState_eq h1
  have hlog : s1.log = s.log := by rw [hs1]
  rw [← hlog, ← failed_all_iff (Inv.refresh h.inv h1)]
  constructor
  · intro he
    unfold iterate at he
    rw [h1, Out.ok_bind] at he
    split at he
    · assumption
    · exfalso
      split at he
      · cases h2 : schedule k inp.spawnOk s1 with
        | ok s2 => rw [h2, Out.ok_bind] at he; cases he
        | err e =>
          rw [h2] at he
          have := (schedule_err h2).1
          subst this
          exact absurd (Out.err.inj he) (by decide)
        | _ => rw [h2] at he; cases he
      · split at he
        · cases hs : k.sufficient with
          | false => rw [hs] at he; cases he
          | true =>
            cases ht : decide (s1.iTask ≥ k.n) with
            | false => rw [hs, ht] at he; cases he
            | true => rw [hs, ht] at he; cases he
        · cases hp : inp.poll with
          | none =>
            rw [hp] at he
            exact absurd (Out.err.inj he) (by decide)
          | some evs =>
            rw [hp] at he
            simp only at he
            cases h3 : processEvents k evs { s1 with log := s1.log ++ [.poll] } with
            | ok s2 => rw [h3, Out.ok_bind] at he; cases he
            | err e =>
              rw [h3] at he
              have hm := processEvents_err h3
              rw [Out.err.inj he] at hm
              exact absurd hm (by decide)
            | _ => rw [h3] at he; cases he
  · intro hf
    unfold iterate
    rw [h1, Out.ok_bind, if_pos hf]

theorem processEvent_fine {k : FCfg} {ev : Event} {s : FState} (hi : s.Inv k) (hx : k.exitCode = false)
    (hf : EventFine s ev) {c : FChild} (hc : s.children[ev.token]? = some (some c)) :
    ∃ s', processEvent k ev s = .ok s' := by
  obtain ⟨h1, ⟨ok, h2⟩, h3⟩ := hf
  obtain ⟨b, lines, rest, h4, h5⟩ := h3 c hc
  have h4 := readLoop_of_reads h4
  obtain ⟨text, h6, -⟩ := takeText_of_output h5
  have hocc0 : (occ s.children)[ev.token]? = some true := occ_getElem.mpr ⟨_, hc, rfl⟩
  have hlt : ev.token < k.n := by
    rw [← hi.len]; exact (List.getElem?_eq_some_iff.mp hocc0).1
  have hread : ∃ s1 c1, processRead k ev s = .ok (s1, c1) := by
    unfold processRead
    simp only [hlt, if_true, hc, h4, Out.ok_bind, h6]
    exact ⟨_, _, rfl⟩
  obtain ⟨s1, c1, hr⟩ := hread
  obtain ⟨hi1, hocc⟩ := Inv.processRead hi hr
  have hne : s1.nChildren ≠ 0 := by
    have := countP_pos_of hocc
    have := hi1.cnt
    omega
  unfold processEvent
  rw [hr, Out.ok_bind]
  simp only
  split
  · unfold reap
    simp only [h1, h2, hne, hx]
    cases ok <;> cases c1.aborted <;> simp
  · exact ⟨_, rfl⟩

theorem EventFine.other {k : FCfg} {ev ev' : Event} {s s' : FState} (hf : EventFine s ev')
    (h : processEvent k ev s = .ok s') (hne : ev.token ≠ ev'.token) : EventFine s' ev' := by
  refine ⟨hf.1, hf.2.1, fun c hc => ?_⟩
  rw [processEvent_other h hne] at hc
  exact hf.2.2 c hc

theorem processEvents_fine {k : FCfg} {evs : List Event} {s : FState} (hi : s.Inv k) (hx : k.exitCode = false)
    (hv : ValidBatch s evs) (hf : ∀ ev ∈ evs, EventFine s ev) : ∃ s', processEvents k evs s = .ok s' := by
  induction evs generalizing s with
  | nil => exact ⟨s, rfl⟩
  | cons ev evs ih =>
    obtain ⟨hnd, hall⟩ := hv
    rw [List.map_cons, List.nodup_cons] at hnd
    obtain ⟨c, hc⟩ := hall ev (by simp)
    obtain ⟨s1, h1⟩ := processEvent_fine hi hx (hf ev (by simp)) hc
    have hne : ∀ ev' ∈ evs, ev.token ≠ ev'.token := fun ev' hev' he =>
      hnd.1 (List.mem_map.mpr ⟨ev', hev', he.symm⟩)
    obtain ⟨s', h2⟩ := ih (Inv.processEvent hi h1)
      ⟨hnd.2, fun ev' hev' => by rw [processEvent_other h1 (hne ev' hev')]; exact hall ev' (by simp [hev'])⟩
      (fun ev' hev' => EventFine.other (hf ev' (by simp [hev'])) h1 (hne ev' hev'))
    refine ⟨s', ?_⟩
    unfold processEvents
    rw [h1, Out.ok_bind]
    exact h2

/-- A failing fuzzer does not stop the others: without --exit-code, whatever the exit statuses and output of the
fuzzers are, an iteration goes on (or the command ends normally) unless all targets have failed or an operation
of the operating system fails. -/
theorem C40_failure_does_not_stop_others (k : FCfg) (hx : k.exitCode = false) (hn : k.noUi = true)
    (hcpu : 1 ≤ k.nCpus) (s : FState) (h : Reach k s)
    (hnf : ∃ t < k.targets.length, ¬ HasFailed t s.log) (inp : Inp) (hsp : inp.spawnOk = true) (evs : List Event)
    (hp : inp.poll = some evs) (hv : ValidBatch s evs) (hf : ∀ ev ∈ evs, EventFine s ev) :
    ∃ r, iterate k inp s = .ok r := by
  have hnp := C35_loop_does_not_panic k hcpu s h inp (fun e he => by rw [hp] at he; cases he; exact hv)
    (by obtain ⟨s1, h1, -⟩ := refreshState_noUi hn inp.term s; rw [h1]; simp)
  obtain ⟨s1, h1, bufs, hs1⟩ := refreshState_noUi hn inp.term s
  have hi := Inv.refresh h.inv h1
  have hfl : s1.failed.length ≠ k.n := by
    intro hc
    obtain ⟨t, ht, hnf⟩ := hnf
    have := (failed_all_iff hi).mp hc t ht
    rw [show s1.log = s.log from by rw [hs1]] at this
    exact hnf this
  unfold iterate at hnp ⊢
  rw [h1, Out.ok_bind, if_neg hfl] at hnp ⊢
  split
  · next hw =>
    rw [if_pos hw] at hnp
    cases h2 : schedule k inp.spawnOk s1 with
    | ok s2 => exact ⟨_, rfl⟩
    | err e => have := (schedule_err h2).2; rw [hsp] at this; cases this
    | panic => rw [h2] at hnp; exact absurd rfl hnp
    | exit c =>
      exfalso
      unfold schedule at h2
      repeat' split at h2
      all_goals first | (cases h2) | skip
      all_goals (simp only [] at h2; repeat' split at h2)
      all_goals first | (cases h2) | skip
      all_goals (cases hs : k.sufficient <;> simp [hs, assert] at h2)
      all_goals (repeat' split at h2)
      all_goals (cases h2)
    | crash =>
      exfalso
      unfold schedule at h2
      repeat' split at h2
      all_goals first | (cases h2) | skip
      all_goals (simp only [] at h2; repeat' split at h2)
      all_goals first | (cases h2) | skip
      all_goals (cases hs : k.sufficient <;> simp [hs, assert] at h2)
      all_goals (repeat' split at h2)
      all_goals (cases h2)
  · next hw =>
    rw [if_neg hw] at hnp
    split
    · next h0 =>
      rw [if_pos h0] at hnp
      cases hs : k.sufficient with
      | false => rw [hs] at hnp; exact absurd rfl hnp
      | true =>
        cases ht : decide (s1.iTask ≥ k.n) with
        | false => rw [hs, ht] at hnp; exact absurd rfl hnp
        | true => exact ⟨_, rfl⟩
    · next h0 =>
      rw [hp]
      simp only
      have hv1 : ValidBatch { s1 with log := s1.log ++ [.poll] } evs := by
        refine ⟨hv.1, fun ev hev => ?_⟩
        obtain ⟨c, hc⟩ := hv.2 ev hev
        have : (occ s1.children)[ev.token]? = some true := by
          rw [hs1]; simp only [occ_putBuffers]
          exact occ_getElem.mpr ⟨_, hc, rfl⟩
        obtain ⟨c', hc', hs⟩ := occ_getElem.mp this
        obtain ⟨c'', rfl⟩ := Option.isSome_iff_exists.mp hs
        exact ⟨c'', hc'⟩
      have hi1 : FState.Inv k { s1 with log := s1.log ++ [.poll] } := by
        unfold FState.Inv at hi ⊢
        have hit : s1.iter = s1.iTask := hi.iter_eq
        rw [hit] at hi
        simp only [hit]
        refine hi.poll h0 ?_
        intro hc
        have : wantsTask k s1 = true := by simpa [wantsTask] using hc
        exact hw this
      have hf1 : ∀ ev ∈ evs, EventFine { s1 with log := s1.log ++ [.poll] } ev := by
        intro ev hev
        refine ⟨(hf ev hev).1, (hf ev hev).2.1, fun c hc => ?_⟩
        have hl : s.children.length = k.targets.length := by
          have := h.inv.len; simpa [occ, FCfg.n] using this
        obtain ⟨c0, b, e1, -, rfl⟩ := refreshState_child hl h1 hc
        exact (hf ev hev).2.2 c0 e1
      obtain ⟨s2, h2⟩ := processEvents_fine hi1 hx hv1 hf1
      exact ⟨.cont s2, by rw [h2]; rfl⟩

end TF
