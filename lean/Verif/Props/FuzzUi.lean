import Verif.Spec.FuzzUi
import Verif.Props.FuzzOutput
import Verif.Props.Command
import Verif.Props.ExpandPanics

/-! # The user interface does not change the fuzzing: C83 -/

namespace TF

open Spec

theorem SameOut.bind {α β γ δ : Type} {R : α → β → Prop} {S : γ → δ → Prop} {x : Out α} {y : Out β}
    {f : α → Out γ} {g : β → Out δ} (h : SameOut R x y) (hf : ∀ a b, R a b → SameOut S (f a) (g b)) :
    SameOut S (x >>= f) (y >>= g) := by
  cases h with
  | ok h => exact hf _ _ h
  | err e => exact .err e
  | panic => exact .panic
  | exit c => exact .exit c
  | crash => exact .crash

theorem SameOut.same {α : Type} (x : Out α) : SameOut (· = ·) x x := by
  cases x with
  | ok a => exact .ok rfl
  | err e => exact .err e
  | panic => exact .panic
  | exit c => exact .exit c
  | crash => exact .crash

theorem Spec.SameFuzzer.refl (c : FChild) : SameFuzzer c c := ⟨rfl, rfl, rfl, rfl, rfl⟩

theorem Spec.SameWork.n {k k' : FCfg} (h : SameWork k k') : k.n = k'.n := by unfold FCfg.n; rw [h.targets]

theorem Spec.SameWork.sufficient {k k' : FCfg} (h : SameWork k k') : k.sufficient = k'.sufficient := by
  unfold FCfg.sufficient; rw [h.n, h.nCpus]

/-- One line is processed alike. -/
theorem processLines_same (k k' : FCfg) (i : Nat) (ls : List Str) (c c' : FChild) (prev prev' : Nat)
    (printed printed' : List Printed) (h : SameFuzzer c c') :
    SameFuzzer (processLines k i ls (c, prev, printed)).1 (processLines k' i ls (c', prev', printed')).1 := by
  induction ls generalizing c c' prev prev' printed printed' with
  | nil => exact h
  | cons line ls ih =>
    obtain ⟨h1, h2, h3, h4, h5⟩ := h
    simp only [processLines]
    generalize contains line c%"Time limit was reached" = b1
    generalize contains line c%"+++ Testing aborted programmatically +++" = b2
    cases k.noUi <;> cases k'.noUi <;> cases b1 <;> cases b2 <;> exact ih _ _ _ _ _ _ ⟨h1, by simp_all, by simp_all, h4, h5⟩

theorem sameSlots_get {l l' : List (Option FChild)} (h : List.Forall₂ SameSlot l l') (i : Nat) :
    (l[i]? = none ∧ l'[i]? = none) ∨ ∃ a b, l[i]? = some a ∧ l'[i]? = some b ∧ SameSlot a b := by
  induction h generalizing i with
  | nil => simp
  | cons h _ ih =>
    cases i with
    | zero => exact Or.inr ⟨_, _, rfl, rfl, h⟩
    | succ i => simpa using ih i

theorem sameSlots_set {l l' : List (Option FChild)} (h : List.Forall₂ SameSlot l l') (i : Nat) {a b : Option FChild}
    (hab : SameSlot a b) : List.Forall₂ SameSlot (l.set i a) (l'.set i b) := by
  induction h generalizing i with
  | nil => exact .nil
  | cons h ht ih =>
    cases i with
    | zero => exact .cons hab ht
    | succ i => exact .cons h (ih i)

theorem processRead_same {k k' : FCfg} (hk : SameWork k k') (ev : Event) {s s' : FState} (h : SameFuzzing s s') :
    SameOut (fun p p' => SameFuzzing p.1 p'.1 ∧ SameFuzzer p.2 p'.2) (processRead k ev s) (processRead k' ev s') := by
  unfold processRead
  rw [hk.n]
  split
  · rcases sameSlots_get h.children ev.token with ⟨h1, h2⟩ | ⟨a, b, h1, h2, h3⟩
    · rw [h1, h2]; exact .panic
    · rw [h1, h2]
      cases h3 with
      | empty => exact .panic
      | @fuzzer c c' hc =>
        refine SameOut.bind (SameOut.same _) fun b _ hb => ?_
        subst hb
        rw [← hc.unprinted]
        refine SameOut.bind (SameOut.same _) fun p _ hp => ?_
        subst hp
        obtain ⟨text, rest⟩ := p
        have := processLines_same k k' ev.token (strLines text)
          { c with unprinted := rest, recv := c.recv ++ b, lines := c.lines ++ strLines text }
          { c' with unprinted := rest, recv := c'.recv ++ b, lines := c'.lines ++ strLines text } s.prev s'.prev
          s.printed s'.printed ⟨rfl, hc.timeLimit, hc.aborted, by simp [hc.recv], by simp [hc.lines]⟩
        exact .ok ⟨⟨h.nChildren, h.iTask, h.iter, h.failed, h.log, sameSlots_set h.children _ (.fuzzer this)⟩, this⟩
  · exact .panic

theorem reap_same {k k' : FCfg} (hk : SameWork k k') (ev : Event) {c c' : FChild} (hc : SameFuzzer c c')
    {s s' : FState} (h : SameFuzzing s s') : SameOut SameFuzzing (reap k ev c s) (reap k' ev c' s') := by
  unfold reap
  simp only [← h.nChildren, ← h.failed, ← h.log, ← hk.exitCode, ← hc.aborted, ← hc.timeLimit]
  have hch := sameSlots_set h.children ev.token .empty
  split
  · exact .err _
  · split
    · exact .panic
    · split
      · exact .err _
      · split
        · exact .ok ⟨rfl, h.iTask, h.iter, rfl, rfl, hch⟩
        · split
          · exact .ok ⟨rfl, h.iTask, h.iter, rfl, rfl, hch⟩
          · split
            · exact .exit _
            · exact .ok ⟨rfl, h.iTask, h.iter, rfl, rfl, hch⟩

theorem processEvents_same {k k' : FCfg} (hk : SameWork k k') (evs : List Event) {s s' : FState}
    (h : SameFuzzing s s') : SameOut SameFuzzing (processEvents k evs s) (processEvents k' evs s') := by
  induction evs generalizing s s' with
  | nil => exact .ok h
  | cons ev evs ih =>
    refine SameOut.bind (R := SameFuzzing) ?_ fun _ _ h => ih h
    unfold processEvent
    refine SameOut.bind (processRead_same hk ev h) fun p p' hp => ?_
    obtain ⟨s1, c1⟩ := p
    obtain ⟨s1', c1'⟩ := p'
    simp only
    split
    · exact reap_same hk ev hp.2 hp.1
    · exact .ok hp.1

theorem schedule_same {k k' : FCfg} (hk : SameWork k k') (b : Bool) {s s' : FState} (h : SameFuzzing s s') :
    SameOut SameFuzzing (schedule k b s) (schedule k' b s') := by
  unfold schedule
  simp only [← hk.n, ← hk.sufficient, ← h.nChildren, ← h.iTask, ← h.iter, ← h.failed, ← h.log]
  split
  · exact .panic
  · split
    · exact .ok ⟨rfl, rfl, rfl, rfl, rfl, h.children⟩
    · rcases sameSlots_get h.children (s.iTask % k.n) with ⟨h1, h2⟩ | ⟨a, c, h1, h2, h3⟩
      · rw [h1, h2]; exact .panic
      · rw [h1, h2]
        cases h3 with
        | fuzzer _ =>
          refine SameOut.bind (SameOut.same _) fun _ _ _ => ?_
          exact .ok ⟨rfl, rfl, rfl, rfl, rfl, h.children⟩
        | empty =>
          refine SameOut.bind (SameOut.same _) fun _ _ _ => ?_
          split
          · exact .ok ⟨rfl, rfl, rfl, rfl, rfl, sameSlots_set h.children _ (.fuzzer (.refl _))⟩
          · exact .err _

theorem putBuffers_same {l l' : List (Option FChild)} (h : List.Forall₂ SameSlot l l') (bs bs' : List (List Bytes)) :
    List.Forall₂ SameSlot (putBuffers l bs) (putBuffers l' bs') := by
  induction h generalizing bs bs' with
  | nil => exact .nil
  | cons h _ ih =>
    cases h with
    | empty => exact .cons .empty (ih _ _)
    | fuzzer h =>
      cases bs <;> cases bs' <;> exact .cons (.fuzzer ⟨h.1, h.2, h.3, h.4, h.5⟩) (ih _ _)

/-- Drawing changes nothing but what is shown. -/
theorem refreshState_same {k k' : FCfg} {t t' : Option (Nat × Nat)} {s s' s1 s1' : FState} (h : SameFuzzing s s')
    (h1 : refreshState k t s = .ok s1) (h1' : refreshState k' t' s' = .ok s1') : SameFuzzing s1 s1' := by
  obtain ⟨bufs, rfl⟩ := refreshState_eq h1
  obtain ⟨bufs', rfl⟩ := refreshState_eq h1'
  exact ⟨h.nChildren, h.iTask, h.iter, h.failed, h.log, putBuffers_same h.children _ _⟩

inductive SameNext : Next → Next → Prop
  | cont {s s' : FState} : SameFuzzing s s' → SameNext (.cont s) (.cont s')
  | done {s s' : FState} : SameFuzzing s s' → SameNext (.done s) (.done s')

theorem iterate_same {k k' : FCfg} (hk : SameWork k k') {i i' : Inp} (hi : SameBehaviour i i') {s s' s1 s1' : FState}
    (h : SameFuzzing s s') (h1 : refreshState k i.term s = .ok s1) (h1' : refreshState k' i'.term s' = .ok s1') :
    SameOut SameNext (iterate k i s) (iterate k' i' s') := by
  have hs := refreshState_same h h1 h1'
  unfold iterate
  rw [h1, h1', Out.ok_bind, Out.ok_bind]
  have hw : wantsTask k s1 = wantsTask k' s1' := by
    unfold wantsTask; rw [hk.n, hk.sufficient, hs.nChildren, hs.iTask, hk.nCpus]
  rw [← hw, ← hs.failed, ← hk.n, ← hs.nChildren, ← hs.iTask, ← hk.sufficient, ← hi.spawnOk, ← hi.poll, ← hs.log]
  split
  · exact .err _
  · split
    · exact SameOut.bind (schedule_same hk _ hs) fun _ _ h => .ok (.cont h)
    · split
      · refine SameOut.bind (SameOut.same _) fun _ _ _ => SameOut.bind (SameOut.same _) fun _ _ _ => ?_
        exact .ok (.done hs)
      · split
        · exact .err _
        · refine SameOut.bind (processEvents_same hk _ ?_) fun _ _ h => .ok (.cont h)
          exact ⟨rfl, rfl, hs.iter, rfl, rfl, hs.children⟩

theorem sameFuzzing_init {k k' : FCfg} (hk : SameWork k k') : SameFuzzing (FState.init k) (FState.init k') := by
  refine ⟨rfl, rfl, rfl, rfl, rfl, ?_⟩
  simp only [FState.init, hk.n]
  induction k'.n with
  | zero => exact .nil
  | succ n ih => exact .cons .empty ih

theorem fuzzLoop_same {k k' : FCfg} (hk : SameWork k k') (inp inp' : Nat → Inp)
    (hi : ∀ t, SameBehaviour (inp t) (inp' t)) (P : FState → Prop) (P' : FState → Prop)
    (hP : ∀ t s, P s → (∃ s1, refreshState k (inp t).term s = .ok s1) ∧ ∀ s1, iterate k (inp t) s = .ok (.cont s1) → P s1)
    (hP' : ∀ t s, P' s → (∃ s1, refreshState k' (inp' t).term s = .ok s1) ∧
      ∀ s1, iterate k' (inp' t) s = .ok (.cont s1) → P' s1)
    (fuel t : Nat) (s s' : FState) (h : SameFuzzing s s') (hs : P s) (hs' : P' s') :
    SameRun (fuzzLoop k inp fuel t s) (fuzzLoop k' inp' fuel t s') := by
  induction fuel generalizing t s s' with
  | zero => exact .running
  | succ fuel ih =>
    obtain ⟨⟨s1, h1⟩, hn⟩ := hP t s hs
    obtain ⟨⟨s1', h1'⟩, hn'⟩ := hP' t s' hs'
    have := iterate_same hk (hi t) h h1 h1'
    unfold fuzzLoop
    generalize hx : iterate k (inp t) s = x at this ⊢
    generalize hy : iterate k' (inp' t) s' = y at this ⊢
    cases this with
    | ok hnx =>
      cases hnx with
      | cont hc => exact ih _ _ _ hc (hn _ hx) (hn' _ hy)
      | done hc => exact .ended (.ok hc)
    | err e => exact .ended (.err e)
    | panic => exact .ended .panic
    | exit c => exact .ended (.exit c)
    | crash => exact .ended .crash

/-! ## Drawing succeeds or panics -/

theorem sliceTo_okp (b : Bytes) (i : Nat) : OkOrPanic (sliceTo b i) := by
  unfold sliceTo
  split
  · exact okp_ok _
  · exact okp_panic

theorem widthSearch_okp (vis : Bytes → Nat) (b : Bytes) (width : Nat) :
    ∀ k min max, max - min ≤ k → OkOrPanic (widthSearch vis b width min max) := by
  intro k
  induction k with
  | zero =>
    intro min max h
    unfold widthSearch
    rw [dif_neg (by omega)]
    split
    · exact okp_ok _
    · exact okp_panic
  | succ k ih =>
    intro min max h
    unfold widthSearch
    split
    · next hlt =>
      simp only
      rcases sliceTo_okp b ((min + max) / 2) with ⟨p, hp⟩ | hp
      · rw [hp]
        simp only
        split
        · exact ih _ _ (by omega)
        · exact ih _ _ (by omega)
      · rw [hp]; exact okp_panic
    · split
      · exact okp_ok _
      · exact okp_panic

theorem prefixWithWidth_okp (vis : Bytes → Nat) (b : Bytes) (width : Nat) : OkOrPanic (prefixWithWidth vis b width) :=
  okp_bind (widthSearch_okp vis b width _ _ _ (Nat.le_refl _)) fun _ => sliceTo_okp _ _

theorem childLines_okp (vis : Bytes → Nat) (cols : Nat) (buf : List Bytes) (is : List Nat) :
    OkOrPanic (childLines vis cols buf is) := by
  induction is with
  | nil => exact okp_ok _
  | cons i is ih =>
    refine okp_bind ?_ fun _ => okp_bind ih fun _ => okp_ok _
    cases buf[i]? with
    | none => exact okp_ok _
    | some l => exact prefixWithWidth_okp _ _ _

theorem refreshChildren_okp (vis : Bytes → Nat) (cols avail n : Nat) (cs : List (Bytes × List Bytes)) :
    ∀ i, OkOrPanic (refreshChildren vis cols avail n i cs) := by
  induction cs with
  | nil => exact fun _ => okp_ok _
  | cons c cs ih =>
    intro i
    refine okp_bind ?_ fun _ => okp_bind (childLines_okp _ _ _ _) fun _ => okp_bind (ih _) fun _ => okp_ok _
    unfold dividerWithWidth
    simp only
    split
    · exact prefixWithWidth_okp _ _ _
    · exact okp_ok _

theorem refreshState_okp (k : FCfg) (term : Option (Nat × Nat)) (s : FState) : OkOrPanic (refreshState k term s) := by
  refine okp_bind ?_ fun _ => okp_ok _
  unfold refresh
  split
  · exact okp_ok _
  · split
    · exact okp_panic
    · split
      · exact okp_ok _
      · refine okp_bind ?_ fun _ => refreshChildren_okp _ _ _ _ _ _
        unfold assert
        split
        · exact okp_ok _
        · exact okp_panic

/-! ## C83 -/

/-- What is needed for drawing to succeed throughout: no user interface, or a terminal, and target names and output
that are ASCII. -/
def Spec.CanDraw (k : FCfg) (inp : Nat → Inp) : Prop :=
  k.noUi = true ∨ (VisMono k.vis ∧ (∀ t ∈ k.targets, Ascii (utf8Encode t)) ∧
    ∀ t, (inp t).term ≠ none ∧ WritesAscii (inp t))

/-- How the fuzzing is shown – with or without user interface, on whatever terminal – has no influence on it: if the
fuzzers and the operating system behave the same, then the same fuzzers are started in the same order, their output
is understood the same way, the same targets count as failed and the run ends at the same moment with the same
result. -/
theorem C83_same_fuzzing {k k' : FCfg} (hk : SameWork k k') (inp inp' : Nat → Inp)
    (hi : ∀ t, SameBehaviour (inp t) (inp' t)) (hd : CanDraw k inp) (hd' : CanDraw k' inp') (fuel : Nat) :
    SameRun (fuzzLoop k inp fuel 0 (FState.init k)) (fuzzLoop k' inp' fuel 0 (FState.init k')) := by
  have key : ∀ (k : FCfg) (inp : Nat → Inp), CanDraw k inp → ∃ P : FState → Prop, P (FState.init k) ∧
      ∀ t s, P s → (∃ s1, refreshState k (inp t).term s = .ok s1) ∧ ∀ s1, iterate k (inp t) s = .ok (.cont s1) → P s1 := by
    intro k inp hd
    rcases hd with hn | ⟨hm, hnames, ht⟩
    · refine ⟨fun _ => True, trivial, fun t s _ => ⟨?_, fun _ _ => trivial⟩⟩
      obtain ⟨s', h, -⟩ := refreshState_noUi hn (inp t).term s
      exact ⟨s', h⟩
    · refine ⟨ReachIf WritesAscii k, .init, fun t s hs => ⟨?_, fun s1 h1 => .step hs (ht t).2 h1⟩⟩
      exact refreshState_ascii k hm hnames s hs _ (ht t).1
  obtain ⟨P, h0, hP⟩ := key k inp hd
  obtain ⟨P', h0', hP'⟩ := key k' inp' hd'
  exact fuzzLoop_same hk inp inp' hi P P' hP hP' fuel 0 _ _ (sameFuzzing_init hk) h0 h0'

theorem fuzzLoop_or_panic {k k' : FCfg} (hk : SameWork k k') (hn : k'.noUi = true) (inp inp' : Nat → Inp)
    (hi : ∀ t, SameBehaviour (inp t) (inp' t)) (fuel t : Nat) (s s' : FState) (h : SameFuzzing s s') :
    SameRun (fuzzLoop k inp fuel t s) (fuzzLoop k' inp' fuel t s') ∨
      (k.noUi = false ∧ fuzzLoop k inp fuel t s = some .panic) := by
  induction fuel generalizing t s s' with
  | zero => exact .inl .running
  | succ fuel ih =>
    obtain ⟨s1', h1', -⟩ := refreshState_noUi hn (inp' t).term s'
    rcases refreshState_okp k (inp t).term s with ⟨s1, h1⟩ | h1
    · have := iterate_same hk (hi t) h h1 h1'
      unfold fuzzLoop
      generalize hx : iterate k (inp t) s = x at this ⊢
      generalize hy : iterate k' (inp' t) s' = y at this ⊢
      cases this with
      | ok hnx =>
        cases hnx with
        | cont hc => exact ih _ _ _ hc
        | done hc => exact .inl (.ended (.ok hc))
      | err e => exact .inl (.ended (.err e))
      | panic => exact .inl (.ended .panic)
      | exit c => exact .inl (.ended (.exit c))
      | crash => exact .inl (.ended .crash)
    · refine .inr ⟨?_, ?_⟩
      · cases hk' : k.noUi with
        | false => rfl
        | true =>
          obtain ⟨s1, h2, -⟩ := refreshState_noUi hk' (inp t).term s
          rw [h2] at h1; cases h1
      · unfold fuzzLoop iterate
        rw [h1]
        rfl

/-- Whatever the names, the output and the terminal: the only difference the user interface can make is that the
command panics (while drawing). -/
theorem C83_panic_at_worst {k k' : FCfg} (hk : SameWork k k') (hn : k'.noUi = true) (inp inp' : Nat → Inp)
    (hi : ∀ t, SameBehaviour (inp t) (inp' t)) (fuel : Nat) :
    SameRun (fuzzLoop k inp fuel 0 (FState.init k)) (fuzzLoop k' inp' fuel 0 (FState.init k')) ∨
      (k.noUi = false ∧ fuzzLoop k inp fuel 0 (FState.init k) = some .panic) :=
  fuzzLoop_or_panic hk hn inp inp' hi fuel 0 _ _ (sameFuzzing_init hk)

/-- The fuzzers started are the same as well: the command of a fuzzer has the same program, arguments and working
directory, and the same environment but for `AFL_NO_UI`. -/
theorem C83_command (checks : Bool) (o : Opts) (c : Ctx) (llvm : List (Str × Str)) (cfg : Config) (exe : Exe)
    (target : Str) (ui noUi : Bool) :
    SameOut (fun a b => a.program = b.program ∧ a.args = b.args ∧ a.cwd = b.cwd ∧
        ∀ parent x, x ≠ c%"AFL_NO_UI" → a.childEnv parent x = b.childEnv parent x)
      (fuzzCommand checks o c llvm cfg exe target)
      (fuzzCommand checks { o with noUi := noUi } c llvm { cfg with ui := ui } exe target) := by
  have ht : timeoutArgs checks { o with noUi := noUi } = timeoutArgs checks o := rfl
  unfold fuzzCommand
  rw [ht]
  refine SameOut.bind (SameOut.same _) fun corpus _ h => ?_
  subst h
  refine SameOut.bind (SameOut.same _) fun out _ h => ?_
  subst h
  refine SameOut.bind (SameOut.same _) fun t _ h => ?_
  subst h
  simp only [command, Out.ok_bind]
  refine .ok ⟨rfl, rfl, rfl, fun parent x hx => ?_⟩
  simp only [Cmd.childEnv, Cmd.addArgs, Cmd.addEnvs, List.foldl_append, List.map_append]
  generalize List.foldl Env.apply (List.foldl Env.apply parent _) _ = e
  have hset : ∀ e : Env, (e.apply (c%"AFL_NO_UI", some c%"1")) x = e x := by
    intro e
    simp only [Env.apply, Env.set]
    exact if_neg hx
  have hagree : ∀ (l : List (Str × Option Str)) (e e' : Env), e x = e' x →
      l.foldl Env.apply e x = l.foldl Env.apply e' x := by
    intro l
    induction l with
    | nil => exact fun _ _ h => h
    | cons y l ih =>
      intro e e' h
      refine ih _ _ ?_
      obtain ⟨y, v⟩ := y
      cases v <;> simp only [Env.apply, Env.set] <;> split <;> first | rfl | exact h
  refine hagree _ _ _ ?_
  cases cfg.ui <;> cases ui <;>
    simp only [Bool.not_true, Bool.not_false, Bool.false_eq_true, if_true, if_false, List.map_cons, List.map_nil,
      List.foldl_cons, List.foldl_nil, hset]

/-! ### The warning about a fuzzer that failed -/

/-- Without user interface the warning shows nothing of the fuzzer's output (its lines were printed as they came). -/
theorem C83_warning_empty (k : FCfg) (hn : k.noUi = true) (s : FState) (h : Reach k s) (ev : Event) (s1 : FState)
    (c : FChild) (h1 : processRead k ev s = .ok (s1, c)) : warningOutput c = [] := by
  obtain ⟨ho, hc⟩ := OInv.processRead h.oinv h1
  unfold warningOutput
  rw [((ho.2 _ _ hc).noui hn).2]
  rfl

theorem joinLines_encode (l : List Str) : joinLines (l.map utf8Encode) = utf8Encode (joinWith c%"\n" l) := by
  induction l with
  | nil => rfl
  | cons x l ih =>
    cases l with
    | nil => rfl
    | cons y l =>
      rw [joinWith, utf8Encode_append, utf8Encode_append, ← ih]
      simp only [List.map_cons, joinLines, List.append_assoc]
      rfl

/-- With user interface it shows the last lines of the output of that very fuzzer, at least those that came with the
last piece of output. -/
theorem C83_warning_last_lines (k : FCfg) (hn : k.noUi = false) (s : FState) (h : Reach k s) (ev : Event) (s1 : FState)
    (c0 c : FChild) (hc0 : s.children[ev.token]? = some (some c0)) (h1 : processRead k ev s = .ok (s1, c)) :
    ∃ earlier kept new, c0.lines = earlier ++ kept ∧ c.lines = earlier ++ (kept ++ new) ∧
      warningOutput c = utf8Encode (joinWith c%"\n" (kept ++ new)) := by
  obtain ⟨c0', b, text, rest, prev', printed', hc, hlt, hr, ht, hpl, rfl⟩ := processRead_occ h1
  rw [hc0] at hc
  cases hc
  have hinv := h.oinv
  have hp := processLines_spec k ev.token _ _ _ _ _ _ _ hpl hlt hinv.1
  obtain ⟨-, -, hl, -, -, -, hb, -⟩ := hp
  obtain ⟨earlier, he⟩ := (hinv.2 _ _ hc0).ui hn
  refine ⟨c0.lines.take earlier.length, c0.lines.drop earlier.length, strLines text, by simp, by rw [hl]; simp [← List.append_assoc], ?_⟩
  unfold warningOutput
  rw [hb hn]
  have : c0.buffer = (c0.lines.drop earlier.length).map utf8Encode := by
    have h2 : (c0.lines.map utf8Encode).drop earlier.length = c0.buffer := by rw [← he]; simp
    rw [← h2, List.map_drop]
  rw [this, ← List.map_append, joinLines_encode]

/-! ### An example: two targets, the fuzzer of the second writes two lines and fails -/

namespace FuzzUiDemo

def cfg (noUi : Bool) : FCfg := ⟨[c%"f", c%"g"], 2, noUi, true, exVis⟩

/-- The terminal has 3 rows, so there is no row for the output of two fuzzers. -/
def inp (term : Option (Nat × Nat)) : Nat → Inp
  | 2 => ⟨term, true, some [⟨1, [.data [97, 10]], false, true, .error⟩]⟩
  | 3 => ⟨term, true, some [⟨1, [.data [98, 10]], true, true, .status false⟩]⟩
  | 4 => ⟨term, true, some [⟨0, [.data [43, 43, 43]], false, true, .error⟩]⟩
  | 5 => ⟨term, true, none⟩
  | _ => ⟨term, true, some []⟩

theorem draws : CanDraw (cfg false) (inp (some (3, 80))) ∧ CanDraw (cfg true) (inp none) := by
  refine ⟨.inr ⟨exVis_mono, by unfold Ascii; decide, fun t => ⟨?_, ?_⟩⟩, .inl rfl⟩
  · unfold inp; split <;> simp
  · intro evs h ev hev b hb x hx
    unfold inp at h
    split at h <;> simp only [Option.some.injEq, reduceCtorEq] at h <;> subst h <;>
      simp only [List.mem_singleton, List.not_mem_nil] at hev <;> subst hev <;>
      simp only [List.mem_singleton, ReadRes.data.injEq] at hb <;> subst hb <;>
      simp only [List.mem_cons, List.not_mem_nil, or_false] at hx
    · rcases hx with rfl | rfl <;> decide
    · rcases hx with rfl | rfl <;> decide
    · rcases hx with rfl | rfl | rfl <;> decide

theorem work : SameWork (cfg false) (cfg true) := ⟨rfl, rfl, rfl⟩

theorem behaviour (t : Nat) : SameBehaviour (inp (some (3, 80)) t) (inp none t) := by
  unfold inp
  split <;> exact ⟨rfl, rfl⟩

/-- What the loop did. -/
def logAfter (k : FCfg) (i : Nat → Inp) : Nat → Option (List LogEv × List Nat × List Printed)
  | 0 => none
  | n + 1 =>
    let rec go : Nat → Nat → FState → Option (List LogEv × List Nat × List Printed)
      | 0, _, s => some (s.log, s.failed, s.printed)
      | n + 1, t, s =>
        match iterate k (i t) s with
        | .ok (.cont s') => go n (t + 1) s'
        | _ => none
    go n 0 (FState.init k)

/-- How the loop ended. -/
def ending (k : FCfg) (i : Nat → Inp) : Option (Out Unit) :=
  (fuzzLoop k i 9 0 (FState.init k)).map fun r => r >>= fun _ => .ok ()

example : logAfter (cfg false) (inp (some (3, 80))) 5 =
      some ([.start 0 0 true, .start 1 1 true, .poll, .poll, .ended 1 .failed], [1], []) ∧
    logAfter (cfg true) (inp none) 5 =
      some ([.start 0 0 true, .start 1 1 true, .poll, .poll, .ended 1 .failed], [1],
        [.heading 1, .line 1 c%"a", .line 1 c%"b"]) ∧
    ending (cfg false) (inp (some (3, 80))) = some (.err c%"`poll` failed") ∧
    ending (cfg true) (inp none) = some (.err c%"`poll` failed") ∧
    ending (cfg false) (inp none) = some .panic := by decide +kernel

/-- The fuzzer of the second target just before it ends: the first line was dropped from the screen. -/
def before (noUi : Bool) : FState :=
  ⟨2, 2, 2, [some {}, some { buffer := [], recv := [97, 10], lines := [c%"a"] }], 1, [], [.start 0 0 true, .start 1 1 true, .poll],
    if noUi then [.heading 1, .line 1 c%"a"] else []⟩

/-- The warning shows one of the two lines with user interface, and none without. -/
example : (∃ s c, processRead (cfg false) ⟨1, [.data [98, 10]], true, true, .status false⟩ (before false) = .ok (s, c) ∧
      c.lines = [c%"a", c%"b"] ∧ warningOutput c = [98]) ∧
    ∃ s c, processRead (cfg true) ⟨1, [.data [98, 10]], true, true, .status false⟩ (before true) = .ok (s, c) ∧
      c.lines = [c%"a", c%"b"] ∧ warningOutput c = [] :=
  ⟨⟨_, _, rfl, rfl, rfl⟩, ⟨_, _, rfl, rfl, rfl⟩⟩

end FuzzUiDemo

end TF
