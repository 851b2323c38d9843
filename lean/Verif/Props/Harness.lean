import Verif.Props.Instrument
import Verif.Props.CommandEnv

/-! # Harnesses: C10, C11, C12, and C08 for whole processes -/

namespace TF

open Spec

variable {V R : Type}

theorem calls_append (a b : List (Ev V R)) : calls (a ++ b) = calls a ++ calls b := by
  induction a with
  | nil => rfl
  | cons x a ih => cases x <;> simp [calls, ih]

theorem hints_append (a b : List (Ev V R)) : hints (a ++ b) = hints a + hints b := by
  induction a with
  | nil => simp [hints]
  | cons x a ih => cases x <;> simp [hints, ih]; omega

theorem calls_inner {l : List (Ev V R)} (h : ∀ a ∈ l, Inner a) : calls l = [] := by
  induction l with
  | nil => rfl
  | cons x l ih =>
    have h0 := h x List.mem_cons_self
    have := ih fun a ha => h a (List.mem_cons_of_mem _ ha)
    cases x <;> first | exact this | exact absurd rfl (h0.1 _)

theorem hints_inner {l : List (Ev V R)} (h : ∀ a ∈ l, Inner a) : hints l = 0 := by
  induction l with
  | nil => rfl
  | cons x l ih =>
    have h0 := h x List.mem_cons_self
    have := ih fun a ha => h a (List.mem_cons_of_mem _ ha)
    cases x <;> first | exact this | exact absurd rfl h0.2

/-- The first line of `entry`. -/
theorem exec_warn (c : Setting) (t : Target V) (run : V → Proc V R → Out R × Proc V R) (f : Frame V R) (s : Proc V R) :
    Code.warnIfTestFuzzNotEnabled.exec c t run f s =
      (.ok f, { s with
        warned := true
        log := s.log ++ if s.warned || testFuzzEnabled c.ctx.env then [] else [.hint] }) := by
  obtain ⟨w, h, b, l⟩ := s
  rw [Code.exec]
  cases b
  · simp only [Bool.false_eq_true, if_false, Bool.false_or]
    rfl
  · simp

theorem exec_andThen (c : Setting) (t : Target V) (run : V → Proc V R → Out R × Proc V R) (a b : Code)
    (f f' : Frame V R) (s s' : Proc V R) (h : a.exec c t run f s = (.ok f', s')) :
    (a ;; b).exec c t run f s = b.exec c t run f' s' := by
  rw [Code.exec, h]

theorem exec_when (c : Setting) (t : Target V) (run : V → Proc V R → Out R × Proc V R) (g : Guard) (a : Code)
    (f : Frame V R) (s : Proc V R) :
    (Code.when g a).exec c t run f s = if g.eval c.ctx.env then a.exec c t run f s else (.ok f, s) := by
  rw [Code.when, Code.exec]
  rfl

/-! ## C10 -/

/-- If `TEST_FUZZ` is not on, a harness does nothing – it reads no input, calls nothing, leaves the panic hook and the
files alone – and succeeds; at most it prints the hint. -/
theorem C10_inert (c : Setting) (t : Target V) (body : V → Prog V R) (s : Proc V R) (h : ¬ On c.ctx.env c%"TEST_FUZZ") :
    ∃ l b, runHarness c t body s = (.ok ⟨none, none⟩, { s with log := s.log ++ l, warned := b }) ∧
      (l = [] ∨ (l = [.hint] ∧ s.warned = false)) ∧ (l = [.hint] → b = true) ∧ (s.warned = true → b = true) := by
  unfold runHarness entryTest
  split
  · have hg : (Guard.testFuzz.eval c.ctx.env) = false := by
      rw [← Bool.not_eq_true, eval_testFuzz]; exact h
    have hg' : testFuzzEnabled c.ctx.env = false := hg
    unfold argsEntry argsEntryFrom
    rw [exec_andThen _ _ _ _ _ _ _ _ _ (exec_warn ..), exec_when, hg, hg']
    cases hw : s.warned with
    | true => exact ⟨[], true, rfl, .inl rfl, by simp, by simp⟩
    | false => exact ⟨[.hint], true, rfl, .inr ⟨rfl, rfl⟩, by simp, by simp⟩
  · exact ⟨[], s.warned, by simp [Code.exec], .inl rfl, by simp, id⟩

/-- However many harnesses run in a process, none reads or calls anything, and the hint is printed at most once. -/
theorem C10_hint_once (c : Setting) (l : List (Target V × (V → Prog V R))) (s : Proc V R)
    (h : ¬ On c.ctx.env c%"TEST_FUZZ") :
    ∃ evs, (runHarnesses c l s).log = s.log ++ evs ∧ (evs = [] ∨ evs = [.hint]) ∧ (s.warned = true → evs = []) ∧
      (runHarnesses c l s).hook = s.hook ∧ (runHarnesses c l s).world = s.world := by
  induction l generalizing s with
  | nil => exact ⟨[], by simp [runHarnesses], .inl rfl, fun _ => rfl, rfl, rfl⟩
  | cons x l ih =>
    obtain ⟨t, body⟩ := x
    obtain ⟨e1, b, hr, he1, hb, hw⟩ := C10_inert c t body s h
    rw [runHarnesses, hr]
    simp only
    obtain ⟨e2, h1, h2, h3, h4, h5⟩ := ih { s with log := s.log ++ e1, warned := b }
    refine ⟨e1 ++ e2, by rw [h1, List.append_assoc], ?_, fun hs => ?_, h4, h5⟩
    · rcases he1 with rfl | ⟨rfl, -⟩
      · exact h2
      · rw [h3 (hb rfl)]; exact .inr rfl
    · rcases he1 with rfl | ⟨rfl, he⟩
      · exact h3 (hw hs)
      · rw [hs] at he; cases he

/-! ## The harness with `TEST_FUZZ` on -/

/-- What the harness makes of the call of the target. -/
def afterCall (r : Out R × Proc V R) (v : V) (k : Frame V R → Proc V R → Out (Frame V R) × Proc V R) :
    Out (Frame V R) × Proc V R :=
  match r with
  | (.ok r, s) => k ⟨some v, some r⟩ s
  | (.err e, s) => (.err e, s)
  | (.panic, s) => (.panic, s)
  | (.exit n, s) => (.exit n, s)
  | (.crash, s) => (.crash, s)

/-- The process state after the first line of `entry`. -/
def warnedState (s : Proc V R) : Proc V R := { s with warned := true }

theorem entry_on (c : Setting) (t : Target V) (run : V → Proc V R → Out R × Proc V R) (s : Proc V R) (ht : hasEntry t.macro_ = true)
    (h : On c.ctx.env c%"TEST_FUZZ") :
    (entryTest t.macro_).exec c t run ⟨none, none⟩ s =
      (Code.cond (.or .coverage (.or .display .replay))
        (.when .coverage (warnIfFunctionIsNontrivial t.macro_) ;; .readArgs ;; .when .display .showArgs ;;
          .when (.or .coverage .replay) (.callTarget ;; .when .replay .showRet))
        (.setAbortHook ;; .readArgs ;; .callTarget ;; .takeHook)).exec c t
          run ⟨none, none⟩ (warnedState s) := by
  have hg : (Guard.testFuzz.eval c.ctx.env) = true := (eval_testFuzz _).mpr h
  have hg' : testFuzzEnabled c.ctx.env = true := hg
  unfold entryTest
  rw [if_pos ht, argsEntry, argsEntryFrom, exec_andThen _ _ _ _ _ _ _ _ _ (exec_warn ..), exec_when, hg, hg']
  simp [warnedState]

theorem withRet_eq (f : Frame V R) (r : Out R × Proc V R) (v : V) (hf : f.args = some v)
    (k : Frame V R → Proc V R → Out (Frame V R) × Proc V R) :
    (match withRet f r with | (.ok f, s) => k f s | r => r) = afterCall r v k := by
  obtain ⟨r, s⟩ := r
  obtain ⟨a, b⟩ := f
  simp only at hf
  subst hf
  cases r <;> rfl

theorem modes_false {e : Env} (h2 : ¬ On e c%"TEST_FUZZ_COVERAGE") (h3 : ¬ On e c%"TEST_FUZZ_DISPLAY")
    (h4 : ¬ On e c%"TEST_FUZZ_REPLAY") : (Guard.or .coverage (.or .display .replay)).eval e = false := by
  show (Guard.coverage.eval e || (Guard.display.eval e || Guard.replay.eval e)) = false
  rw [← Bool.not_eq_true, Bool.or_eq_true, Bool.or_eq_true, eval_coverage, eval_display, eval_replay]
  exact fun hh => by rcases hh with hh | hh | hh <;> contradiction

theorem modes_true {e : Env}
    (h : On e c%"TEST_FUZZ_COVERAGE" ∨ On e c%"TEST_FUZZ_DISPLAY" ∨ On e c%"TEST_FUZZ_REPLAY") :
    (Guard.or .coverage (.or .display .replay)).eval e = true := by
  show (Guard.coverage.eval e || (Guard.display.eval e || Guard.replay.eval e)) = true
  rw [Bool.or_eq_true, Bool.or_eq_true, eval_coverage, eval_display, eval_replay]
  exact h

/-- In fuzzing mode. -/
theorem entry_fuzzing (c : Setting) (t : Target V) (run : V → Proc V R → Out R × Proc V R) (s : Proc V R) (ht : hasEntry t.macro_ = true)
    (h : Fuzzing c.ctx.env) :
    (entryTest t.macro_).exec c t run ⟨none, none⟩ s =
      match t.de c.stdin with
      | none => (.ok ⟨none, none⟩, { s with warned := true, hook := .standard, log := s.log ++ [.readStdin] })
      | some v =>
        afterCall (run v
          { s with warned := true, hook := .abort, log := s.log ++ [.readStdin, .call v] }) v
          fun f s => (.ok f, { s with hook := .standard }) := by
  obtain ⟨h1, h2, h3, h4⟩ := h
  rw [entry_on c t run s ht h1, Code.exec, modes_false h2 h3 h4]
  simp only [Bool.false_eq_true, if_false, Code.exec, warnedState]
  cases hd : t.de c.stdin with
  | none => simp [Proc.note]
  | some v =>
    simp only [Proc.note, List.append_assoc, List.cons_append, List.nil_append]
    exact withRet_eq _ _ v rfl _

/-- In fuzzing mode. -/
theorem harness_fuzzing (c : Setting) (t : Target V) (body : V → Prog V R) (s : Proc V R) (ht : hasEntry t.macro_ = true)
    (h : Fuzzing c.ctx.env) :
    runHarness c t body s =
      match t.de c.stdin with
      | none => (.ok ⟨none, none⟩, { s with warned := true, hook := .standard, log := s.log ++ [.readStdin] })
      | some v =>
        afterCall (callInstrumented c t v ((body v).run c)
          { s with warned := true, hook := .abort, log := s.log ++ [.readStdin, .call v] }) v
          fun f s => (.ok f, { s with hook := .standard }) :=
  entry_fuzzing c t (fun v => callInstrumented c t v ((body v).run c)) s ht h

/-- What a harness does before the call in the other modes. -/
def opening (c : Setting) (t : Target V) : List (Ev V R) :=
  (if coverageEnabled c.ctx.env then (if t.macro_.numStmts ≥ 2 then [.warnNontrivial] else []) else []) ++ [.readStdin] ++
    (if displayEnabled c.ctx.env then [.showArgs (t.de c.stdin) (prettyPrintEnabled c.ctx.env)] else [])

/-- What a harness does after the call in the other modes. -/
def closing_ (c : Setting) (r : Option R) : List (Ev V R) :=
  if replayEnabled c.ctx.env then [.showRet r (prettyPrintEnabled c.ctx.env)] else []

/-- In the other modes. -/
theorem entry_other (c : Setting) (t : Target V) (run : V → Proc V R → Out R × Proc V R) (s : Proc V R) (ht : hasEntry t.macro_ = true)
    (h1 : On c.ctx.env c%"TEST_FUZZ")
    (h : On c.ctx.env c%"TEST_FUZZ_COVERAGE" ∨ On c.ctx.env c%"TEST_FUZZ_DISPLAY" ∨ On c.ctx.env c%"TEST_FUZZ_REPLAY") :
    (entryTest t.macro_).exec c t run ⟨none, none⟩ s =
      if coverageEnabled c.ctx.env || replayEnabled c.ctx.env then
        match t.de c.stdin with
        | none => (.ok ⟨none, none⟩, { s with warned := true, log := s.log ++ (opening c t ++ closing_ c none) })
        | some v =>
          afterCall (run v
            { s with warned := true, log := s.log ++ (opening c t ++ [.call v]) }) v
            fun f s => (.ok f, s.note (closing_ c f.ret))
      else (.ok ⟨t.de c.stdin, none⟩, { s with warned := true, log := s.log ++ opening c t }) := by
  rw [entry_on c t run s ht h1, Code.exec, if_pos (modes_true h)]
  have e1 : (Code.when .coverage (warnIfFunctionIsNontrivial t.macro_)).exec c t
      run ⟨none, none⟩ (warnedState s) =
      (.ok ⟨none, none⟩, (warnedState s).note
        (if coverageEnabled c.ctx.env then (if t.macro_.numStmts ≥ 2 then [.warnNontrivial] else []) else [])) := by
    rw [exec_when, warnIfFunctionIsNontrivial]
    show (if coverageEnabled c.ctx.env = true then _ else _) = _
    split
    · split <;> simp [Code.exec, Proc.note]
    · simp [Proc.note]
  have e3 : ∀ f s, (Code.when .display .showArgs).exec c t
      run f s =
      (.ok f, s.note (if displayEnabled c.ctx.env then [.showArgs f.args (prettyPrintEnabled c.ctx.env)] else [])) := by
    intro f s
    rw [exec_when]
    show (if displayEnabled c.ctx.env = true then _ else _) = _
    split
    · simp [Code.exec]
    · simp [Proc.note]
  have e5 : ∀ f s, (Code.when .replay .showRet).exec c t
      run f s = (.ok f, s.note (closing_ c f.ret)) := by
    intro f s
    rw [exec_when]
    show (if replayEnabled c.ctx.env = true then _ else _) = _
    unfold closing_
    split
    · simp [Code.exec]
    · simp [Proc.note]
  rw [exec_andThen _ _ _ _ _ _ _ _ _ e1, exec_andThen _ _ _ _ _ _ _ _ _ (by rw [Code.exec]),
    exec_andThen _ _ _ _ _ _ _ _ _ (e3 _ _), exec_when]
  show (if (coverageEnabled c.ctx.env || replayEnabled c.ctx.env) = true then _ else _) = _
  split
  · rw [Code.exec, Code.exec]
    cases hd : t.de c.stdin with
    | none => simp [e5, Proc.note, warnedState, opening, hd]
    | some v =>
      simp only [e5]
      refine (withRet_eq _ _ v rfl fun f s => (.ok f, s.note (closing_ c f.ret))).trans ?_
      simp [Proc.note, warnedState, opening, hd]
  · simp [Proc.note, warnedState, opening]

/-- In the other modes. -/
theorem harness_other (c : Setting) (t : Target V) (body : V → Prog V R) (s : Proc V R) (ht : hasEntry t.macro_ = true)
    (h1 : On c.ctx.env c%"TEST_FUZZ")
    (h : On c.ctx.env c%"TEST_FUZZ_COVERAGE" ∨ On c.ctx.env c%"TEST_FUZZ_DISPLAY" ∨ On c.ctx.env c%"TEST_FUZZ_REPLAY") :
    runHarness c t body s =
      if coverageEnabled c.ctx.env || replayEnabled c.ctx.env then
        match t.de c.stdin with
        | none => (.ok ⟨none, none⟩, { s with warned := true, log := s.log ++ (opening c t ++ closing_ c none) })
        | some v =>
          afterCall (callInstrumented c t v ((body v).run c)
            { s with warned := true, log := s.log ++ (opening c t ++ [.call v]) }) v
            fun f s => (.ok f, s.note (closing_ c f.ret))
      else (.ok ⟨t.de c.stdin, none⟩, { s with warned := true, log := s.log ++ opening c t }) :=
  entry_other c t (fun v => callInstrumented c t v ((body v).run c)) s ht h1 h

theorem not_due (c : Setting) (ht : c.test = true) (h : On c.ctx.env c%"TEST_FUZZ") (b : Bool) :
    ¬ Due c.ctx.env c.test b := by
  rintro (⟨-, h'⟩ | ⟨h', -⟩)
  · exact h' h
  · rw [ht] at h'; cases h'

/-- The call of the target by the harness. -/
theorem harness_call (c : Setting) (t : Target V) (v : V) (p : Prog V R) (s : Proc V R) (hc : c.test = true)
    (h : On c.ctx.env c%"TEST_FUZZ") :
    ∃ l, (callInstrumented c t v (p.run c) s).2.log = s.log ++ .body v :: l ∧
      (callInstrumented c t v (p.run c) s).1 = outcome s.hook p ∧
      (callInstrumented c t v (p.run c) s).2.hook = s.hook ∧
      (callInstrumented c t v (p.run c) s).2.world.tick = s.world.tick ∧
      (∀ a ∈ l, Inner a) ∧ (∀ h, .panicked h ∈ l → h = s.hook) ∧ (raises p = true → .panicked s.hook ∈ l) ∧
      ∀ a ∈ l, ¬ IsRecord a := by
  rw [C07_not_due c t v _ s (not_due c hc h _)]
  obtain ⟨l, hl⟩ := run_spec c p { s with log := s.log ++ [.body v] }
  have hq := hl.quiet (not_due c hc h)
  have hf : ∀ k, .recordFailed k ∉ l := fun k hk => hq.1 _ hk trivial
  exact ⟨l, by rw [hl.ext.log]; simp, hl.out hf, hl.ext.hook, hq.2, hl.ext.inner, hl.ext.hooks, hl.raised hf, hq.1⟩

theorem opening_inner (c : Setting) (t : Target V) : ∀ a ∈ (opening c t : List (Ev V R)), Inner a ∧ ¬ IsRecord a := by
  intro a ha
  simp only [opening, List.mem_append] at ha
  rcases ha with (ha | ha) | ha
  · split at ha
    · split at ha <;> simp at ha; subst ha; simp [Inner, IsRecord]
    · simp at ha
  · simp at ha; subst ha; simp [Inner, IsRecord]
  · split at ha <;> simp at ha; subst ha; simp [Inner, IsRecord]

theorem opening_hooks (c : Setting) (t : Target V) (h : Hook) : .panicked h ∉ (opening c t : List (Ev V R)) := by
  intro ha
  simp only [opening, List.mem_append] at ha
  rcases ha with (ha | ha) | ha
  · split at ha
    · split at ha <;> simp at ha
    · simp at ha
  · simp at ha
  · split at ha <;> simp at ha

theorem closing_inner (c : Setting) (r : Option R) : ∀ a ∈ (closing_ c r : List (Ev V R)), Inner a ∧ ¬ IsRecord a := by
  intro a ha
  simp only [closing_] at ha
  split at ha <;> simp at ha; subst ha; simp [Inner, IsRecord]

theorem enabled_of_replaying {e : Env} (h : On e c%"TEST_FUZZ_COVERAGE" ∨ On e c%"TEST_FUZZ_REPLAY") :
    (coverageEnabled e || replayEnabled e) = true := by
  rw [Bool.or_eq_true]
  exact h.imp (eval_coverage e).mpr (eval_replay e).mpr

theorem not_enabled_of_displaying {e : Env} (h1 : ¬ On e c%"TEST_FUZZ_COVERAGE") (h2 : ¬ On e c%"TEST_FUZZ_REPLAY") :
    (coverageEnabled e || replayEnabled e) = false := by
  rw [← Bool.not_eq_true, Bool.or_eq_true]
  rintro (h | h)
  · exact h1 ((eval_coverage e).mp h)
  · exact h2 ((eval_replay e).mp h)

/-- All there is to know about a harness whose input decodes, when fuzzing. -/
theorem fuzzing_spec (c : Setting) (t : Target V) (body : V → Prog V R) (s : Proc V R) (ht : hasEntry t.macro_ = true)
    (hc : c.test = true) (h : Fuzzing c.ctx.env) (v : V) (hv : t.de c.stdin = some v) :
    ∃ l, (runHarness c t body s).2.log = s.log ++ [.readStdin] ++ .call v :: .body v :: l ∧
      (runHarness c t body s).2.world.tick = s.world.tick ∧
      (∀ a ∈ l, Inner a) ∧ (∀ h, .panicked h ∈ l → h = .abort) ∧ (raises (body v) = true → .panicked .abort ∈ l) ∧
      (∀ a ∈ l, ¬ IsRecord a) ∧
      (∀ r, outcome .abort (body v) = .ok r →
        (runHarness c t body s).1 = .ok ⟨some v, some r⟩ ∧ (runHarness c t body s).2.hook = .standard) ∧
      (outcome .abort (body v) = .panic → (runHarness c t body s).1 = .panic) ∧
      (outcome .abort (body v) = .crash → (runHarness c t body s).1 = .crash) := by
  rw [harness_fuzzing c t body s ht h, hv]
  simp only
  obtain ⟨l, h1, h2, h3, h4, h5, h6, h7, h8⟩ := harness_call c t v (body v)
    { s with warned := true, hook := .abort, log := s.log ++ [.readStdin, .call v] } hc h.1
  generalize callInstrumented c t v ((body v).run c)
    { s with warned := true, hook := .abort, log := s.log ++ [.readStdin, .call v] } = x at h1 h2 h3 h4
  obtain ⟨o, s'⟩ := x
  simp only at h1 h2 h3 h4 h6 h7
  refine ⟨l, ?_, ?_, h5, h6, h7, h8, ?_, ?_, ?_⟩
  · cases o <;> simp [afterCall, h1]
  · cases o <;> simp [afterCall, h4]
  · intro r hr
    rw [← h2] at hr
    subst hr
    exact ⟨rfl, rfl⟩
  · intro hr
    rw [← h2] at hr
    subst hr
    rfl
  · intro hr
    rw [← h2] at hr
    subst hr
    rfl

/-- And when replaying or measuring coverage. -/
theorem replaying_spec (c : Setting) (t : Target V) (body : V → Prog V R) (s : Proc V R) (ht : hasEntry t.macro_ = true)
    (hc : c.test = true) (h : Replaying c.ctx.env) (v : V) (hv : t.de c.stdin = some v) :
    ∃ l0 l, (runHarness c t body s).2.log = s.log ++ l0 ++ .call v :: .body v :: l ∧
      (runHarness c t body s).2.world.tick = s.world.tick ∧ (runHarness c t body s).2.hook = s.hook ∧
      (∀ a ∈ l0 ++ l, Inner a) ∧ (∀ h, .panicked h ∈ l0 ++ l → h = s.hook) ∧
      (raises (body v) = true → .panicked s.hook ∈ l) ∧ (∀ a ∈ l0 ++ l, ¬ IsRecord a) ∧
      (∀ r, outcome s.hook (body v) = .ok r → (runHarness c t body s).1 = .ok ⟨some v, some r⟩) ∧
      (outcome s.hook (body v) = .panic → (runHarness c t body s).1 = .panic) ∧
      (outcome s.hook (body v) = .crash → (runHarness c t body s).1 = .crash) := by
  have hm := h.2
  rw [harness_other c t body s ht h.1 (by rcases hm with hm | hm <;> simp [hm]), if_pos (enabled_of_replaying hm), hv]
  simp only
  obtain ⟨l, h1, h2, h3, h4, h5, h6, h7, h8⟩ := harness_call c t v (body v)
    { s with warned := true, log := s.log ++ (opening c t ++ [.call v]) } hc h.1
  generalize callInstrumented c t v ((body v).run c)
    { s with warned := true, log := s.log ++ (opening c t ++ [.call v]) } = x at h1 h2 h3 h4
  obtain ⟨o, s'⟩ := x
  simp only at h1 h2 h3 h4 h6 h7
  have hin : ∀ x : List (Ev V R), (∀ a ∈ x, Inner a ∧ ¬ IsRecord a) →
      (∀ a ∈ opening c t ++ (l ++ x), Inner a) ∧ ∀ a ∈ opening c t ++ (l ++ x), ¬ IsRecord a := by
    intro x hx
    refine ⟨fun a ha => ?_, fun a ha => ?_⟩
    · rcases List.mem_append.mp ha with ha | ha
      · exact (opening_inner c t a ha).1
      · rcases List.mem_append.mp ha with ha | ha
        · exact h5 a ha
        · exact (hx a ha).1
    · rcases List.mem_append.mp ha with ha | ha
      · exact (opening_inner c t a ha).2
      · rcases List.mem_append.mp ha with ha | ha
        · exact h8 a ha
        · exact (hx a ha).2
  by_cases hok : ∃ r, o = .ok r
  · obtain ⟨r, rfl⟩ := hok
    obtain ⟨i1, i2⟩ := hin _ (closing_inner c (some r))
    refine ⟨opening c t, l ++ closing_ c (some r), ?_, h4, h3, i1, ?_, fun hr => List.mem_append_left _ (h7 hr), i2, ?_, ?_, ?_⟩
    · simp [afterCall, h1, Proc.note]
    · intro h hh
      rcases List.mem_append.mp hh with hh | hh
      · exact absurd hh (opening_hooks c t h)
      · rcases List.mem_append.mp hh with hh | hh
        · exact h6 h hh
        · simp only [closing_] at hh
          split at hh <;> simp at hh
    · intro r' hr
      rw [← h2] at hr
      cases hr
      rfl
    · intro hr
      rw [← h2] at hr
      cases hr
    · intro hr
      rw [← h2] at hr
      cases hr
  · have hn : afterCall (o, s') v (fun f s => (.ok f, s.note (closing_ c f.ret))) =
        ((match o with | .ok _ => .panic | .err e => .err e | .panic => .panic | .exit n => .exit n | .crash => .crash), s') := by
      cases o <;> first | rfl | exact (hok ⟨_, rfl⟩).elim
    obtain ⟨i1, i2⟩ := hin [] (by simp)
    rw [List.append_nil] at i1 i2
    rw [hn]
    refine ⟨opening c t, l, ?_, h4, h3, i1, ?_, h7, i2, ?_, ?_, ?_⟩
    · simp [h1]
    · intro h hh
      rcases List.mem_append.mp hh with hh | hh
      · exact absurd hh (opening_hooks c t h)
      · exact h6 h hh
    · intro r' hr
      rw [← h2] at hr
      exact absurd ⟨r', hr⟩ hok
    · intro hr
      rw [← h2] at hr
      subst hr
      rfl
    · intro hr
      rw [← h2] at hr
      subst hr
      rfl

/-! ## C11 -/

/-- Fuzzing, replaying or measuring coverage, the harness calls the target exactly once, with the decoded arguments. -/
theorem C11_called_once (c : Setting) (t : Target V) (body : V → Prog V R) (s : Proc V R) (ht : hasEntry t.macro_ = true)
    (hc : c.test = true) (h : Fuzzing c.ctx.env ∨ Replaying c.ctx.env) (v : V) (hv : t.de c.stdin = some v) :
    ∃ l l', (runHarness c t body s).2.log = s.log ++ l ++ .call v :: .body v :: l' ∧ calls l = [] ∧ calls l' = [] := by
  rcases h with h | h
  · obtain ⟨l, h1, -, h3, -⟩ := fuzzing_spec c t body s ht hc h v hv
    exact ⟨[.readStdin], l, h1, rfl, calls_inner h3⟩
  · obtain ⟨l0, l, h1, -, -, h3, -⟩ := replaying_spec c t body s ht hc h v hv
    exact ⟨l0, l, h1, calls_inner fun a ha => h3 a (List.mem_append_left _ ha),
      calls_inner fun a ha => h3 a (List.mem_append_right _ ha)⟩

/-- If the input does not decode, the target is not called and the harness succeeds. -/
theorem C11_undecodable (c : Setting) (t : Target V) (body : V → Prog V R) (s : Proc V R)
    (h : On c.ctx.env c%"TEST_FUZZ") (hv : t.de c.stdin = none) :
    (∃ f, (runHarness c t body s).1 = .ok f) ∧ ∃ l, (runHarness c t body s).2.log = s.log ++ l ∧ calls l = [] ∧
      (runHarness c t body s).2.world = s.world := by
  by_cases ht : hasEntry t.macro_ = true
  · by_cases hm : On c.ctx.env c%"TEST_FUZZ_COVERAGE" ∨ On c.ctx.env c%"TEST_FUZZ_DISPLAY" ∨ On c.ctx.env c%"TEST_FUZZ_REPLAY"
    · rw [harness_other c t body s ht h hm, hv]
      split
      · refine ⟨⟨_, rfl⟩, _, rfl, calls_inner fun a ha => ?_, rfl⟩
        rcases List.mem_append.mp ha with ha | ha
        · exact (opening_inner c t a ha).1
        · exact (closing_inner c none a ha).1
      · exact ⟨⟨_, rfl⟩, _, rfl, calls_inner fun a ha => (opening_inner c t a ha).1, rfl⟩
    · rw [not_or, not_or] at hm
      rw [harness_fuzzing c t body s ht ⟨h, hm⟩, hv]
      exact ⟨⟨_, rfl⟩, _, rfl, rfl, rfl⟩
  · unfold runHarness entryTest
    rw [if_neg ht]
    exact ⟨⟨_, rfl⟩, [], by simp [Code.exec], rfl, rfl⟩

/-- Only displaying, the target is never called and the harness succeeds; the arguments are shown. -/
theorem C11_display_only (c : Setting) (t : Target V) (body : V → Prog V R) (s : Proc V R) (ht : hasEntry t.macro_ = true)
    (h : Displaying c.ctx.env) :
    (∃ f, (runHarness c t body s).1 = .ok f) ∧ ∃ l, (runHarness c t body s).2.log = s.log ++ l ∧ calls l = [] ∧
      (∃ pretty, .showArgs (t.de c.stdin) pretty ∈ l) ∧ (runHarness c t body s).2.world = s.world := by
  obtain ⟨h1, h2, h3, h4⟩ := h
  rw [harness_other c t body s ht h1 (.inr (.inl h2)), if_neg (by rw [not_enabled_of_displaying h3 h4]; decide)]
  refine ⟨⟨_, rfl⟩, _, rfl, calls_inner fun a ha => (opening_inner c t a ha).1, ⟨prettyPrintEnabled c.ctx.env, ?_⟩, rfl⟩
  have : displayEnabled c.ctx.env = true := (eval_display _).mpr h2
  simp [opening, this]

/-! ## C12 -/

/-- Fuzzing, the process aborts if a panic begins in the target, even one that the target would catch. -/
theorem C12_fuzzing_aborts (c : Setting) (t : Target V) (body : V → Prog V R) (s : Proc V R)
    (ht : hasEntry t.macro_ = true) (hc : c.test = true) (h : Fuzzing c.ctx.env) (v : V) (hv : t.de c.stdin = some v)
    (hr : raises (body v) = true) : (runHarness c t body s).1 = .crash := by
  obtain ⟨l, -, -, -, -, -, -, -, -, h1⟩ := fuzzing_spec c t body s ht hc h v hv
  exact h1 (by simp [outcome, hr])

/-- Fuzzing, if no panic begins, the harness succeeds and leaves the standard hook in place (rather than the hook there
was before). -/
theorem C12_fuzzing_succeeds (c : Setting) (t : Target V) (body : V → Prog V R) (s : Proc V R)
    (ht : hasEntry t.macro_ = true) (hc : c.test = true) (h : Fuzzing c.ctx.env) (v : V) (hv : t.de c.stdin = some v)
    (hr : raises (body v) = false) (r : R) (hp : plain (body v) = .ok r) :
    (runHarness c t body s).1 = .ok ⟨some v, some r⟩ ∧ (runHarness c t body s).2.hook = .standard := by
  obtain ⟨l, -, -, -, -, -, -, h1, -⟩ := fuzzing_spec c t body s ht hc h v hv
  exact h1 r (by simp [outcome, hr, hp])

/-- Replaying or measuring coverage, if the target panics the test fails, and the panic was handled by the hook that was
there all along. -/
theorem C12_replaying_fails (c : Setting) (t : Target V) (body : V → Prog V R) (s : Proc V R)
    (ht : hasEntry t.macro_ = true) (hc : c.test = true) (h : Replaying c.ctx.env) (v : V) (hv : t.de c.stdin = some v)
    (hh : s.hook ≠ .abort) (hp : plain (body v) = .panic) :
    (runHarness c t body s).1 = .panic ∧ (runHarness c t body s).2.hook = s.hook ∧
      ∃ l, (runHarness c t body s).2.log = s.log ++ l ∧ (raises (body v) = true → .panicked s.hook ∈ l) ∧
        ∀ h, .panicked h ∈ l → h = s.hook := by
  obtain ⟨l0, l, h1, -, h2, h3, h4, h5, -, -, h6, -⟩ := replaying_spec c t body s ht hc h v hv
  refine ⟨h6 (by simp [outcome, hh, hp]), h2, l0 ++ .call v :: .body v :: l, by simp [h1], fun hr => ?_, fun k hk => ?_⟩
  · exact List.mem_append_right _ (List.mem_cons_of_mem _ (List.mem_cons_of_mem _ (h5 hr)))
  · refine h4 k ?_
    simp only [List.mem_append, List.mem_cons, reduceCtorEq, false_or] at hk ⊢
    exact hk

/-- If it returns, the test succeeds, with the same hook as before. -/
theorem C12_replaying_succeeds (c : Setting) (t : Target V) (body : V → Prog V R) (s : Proc V R)
    (ht : hasEntry t.macro_ = true) (hc : c.test = true) (h : Replaying c.ctx.env) (v : V) (hv : t.de c.stdin = some v)
    (hh : s.hook ≠ .abort) (r : R) (hp : plain (body v) = .ok r) :
    (runHarness c t body s).1 = .ok ⟨some v, some r⟩ ∧ (runHarness c t body s).2.hook = s.hook := by
  obtain ⟨l0, l, -, -, h2, -, -, -, -, h5, -⟩ := replaying_spec c t body s ht hc h v hv
  exact ⟨h5 r (by simp [outcome, hh, hp]), h2⟩

/-! ## C08 for whole harness processes -/

/-- A harness started with `TEST_FUZZ` on and `TEST_FUZZ_WRITE` off records nothing and touches no file, whatever
instrumented functions its target calls. -/
theorem C08_harness_records_nothing (c : Setting) (t : Target V) (body : V → Prog V R) (s : Proc V R)
    (h1 : On c.ctx.env c%"TEST_FUZZ") (hc : c.test = true) :
    ∃ l, (runHarness c t body s).2.log = s.log ++ l ∧ (∀ a ∈ l, ¬ IsRecord a) ∧
      (runHarness c t body s).2.world.tick = s.world.tick := by
  by_cases ht : hasEntry t.macro_ = true
  · cases hv : t.de c.stdin with
    | none =>
      by_cases hm : On c.ctx.env c%"TEST_FUZZ_COVERAGE" ∨ On c.ctx.env c%"TEST_FUZZ_DISPLAY" ∨ On c.ctx.env c%"TEST_FUZZ_REPLAY"
      · rw [harness_other c t body s ht h1 hm, hv]
        split
        · refine ⟨_, rfl, fun a ha => ?_, rfl⟩
          rcases List.mem_append.mp ha with ha | ha
          · exact (opening_inner c t a ha).2
          · exact (closing_inner c none a ha).2
        · exact ⟨_, rfl, fun a ha => (opening_inner c t a ha).2, rfl⟩
      · rw [not_or, not_or] at hm
        rw [harness_fuzzing c t body s ht ⟨h1, hm⟩, hv]
        exact ⟨_, rfl, by simp [IsRecord], rfl⟩
    | some v =>
      by_cases hm : On c.ctx.env c%"TEST_FUZZ_COVERAGE" ∨ On c.ctx.env c%"TEST_FUZZ_REPLAY"
      · obtain ⟨l0, l, e1, e2, -, -, -, -, e3, -⟩ := replaying_spec c t body s ht hc ⟨h1, hm⟩ v hv
        refine ⟨l0 ++ .call v :: .body v :: l, by simp [e1], fun a ha => ?_, e2⟩
        simp only [List.mem_append, List.mem_cons] at ha
        rcases ha with ha | rfl | rfl | ha
        · exact e3 a (List.mem_append_left _ ha)
        · exact id
        · exact id
        · exact e3 a (List.mem_append_right _ ha)
      · rw [not_or] at hm
        by_cases hd : On c.ctx.env c%"TEST_FUZZ_DISPLAY"
        · rw [harness_other c t body s ht h1 (.inr (.inl hd)),
            if_neg (by rw [not_enabled_of_displaying hm.1 hm.2]; decide)]
          exact ⟨_, rfl, fun a ha => (opening_inner c t a ha).2, rfl⟩
        · obtain ⟨l, e1, e2, -, -, -, e3, -⟩ := fuzzing_spec c t body s ht hc ⟨h1, hm.1, hd, hm.2⟩ v hv
          refine ⟨[.readStdin] ++ .call v :: .body v :: l, by simp [e1], fun a ha => ?_, e2⟩
          simp only [List.mem_append, List.mem_cons, List.not_mem_nil, or_false] at ha
          rcases ha with rfl | rfl | rfl | ha
          · exact id
          · exact id
          · exact id
          · exact e3 a ha
  · unfold runHarness entryTest
    rw [if_neg ht]
    exact ⟨[], by simp [Code.exec], by simp, rfl⟩

/-- So do the fuzzers that `cargo test-fuzz` starts. -/
theorem C08_fuzzer_records_nothing (checks : Bool) (o : Opts) (x : Ctx) (llvm : List (Str × Str)) (cfg : Config) (exe : Exe)
    (target : Str) (cmd : Cmd) (hcmd : fuzzCommand checks o x llvm cfg exe target = .ok cmd) (parent : Env)
    (c : Setting) (he : c.ctx.env = cmd.childEnv parent) (hc : c.test = true)
    (t : Target V) (body : V → Prog V R) (s : Proc V R) :
    ∃ l, (runHarness c t body s).2.log = s.log ++ l ∧ (∀ a ∈ l, ¬ IsRecord a) ∧
      (runHarness c t body s).2.world.tick = s.world.tick :=
  C08_harness_records_nothing c t body s (by rw [he]; exact (C08_fuzzer_environment _ _ _ _ _ _ _ _ hcmd _).1) hc

/-- And the processes it starts to display, replay or measure coverage. -/
theorem C08_replay_records_nothing (o : Opts) (parent : Env) (llvm : List (Str × Str))
    (listing : Cmd → List (Str × Option Str)) (exe : Exe) (target : Str) (e : Exec)
    (hexec : entryExec o parent llvm listing exe target = .ok e) (c : Setting) (he : c.ctx.env = e.env)
    (hc : c.test = true) (t : Target V) (body : V → Prog V R) (s : Proc V R) :
    ∃ l, (runHarness c t body s).2.log = s.log ++ l ∧ (∀ a ∈ l, ¬ IsRecord a) ∧
      (runHarness c t body s).2.world.tick = s.world.tick :=
  C08_harness_records_nothing c t body s (by rw [he]; exact (C08_harness_environment _ _ _ _ _ _ _ hexec).1) hc

/-! ## Cases -/

namespace HarnessDemo

/-- A target over bytes whose recorded form is the argument itself. -/
def target : Target UInt8 :=
  { macro_ := { numStmts := 2 }, typeName := c%"k::t_fuzz__::Args", implTypes := fun _ => [], types := fun _ => []
    ser := fun v => .ok [v], de := List.head?, autos := [] }

def setting (vars : List Str) (stdin : Bytes) : Setting :=
  { ctx := { env := fun k => if k ∈ vars then some (.utf8 c%"1") else none, inTest := false, threadId := [],
             metadata := fun _ => some [c%"w"] }
    plan := Plan.clean, test := true, stdin := stdin }

def start : Proc UInt8 Nat := ⟨⟨fun p => if p = [] ∨ p = [c%"w"] then some .dir else none, 0⟩, .other 7, false, []⟩

/-- A target that calls itself with the next number, catches a panic of that call, and panics on 3. -/
def body (v : UInt8) : Prog UInt8 Nat :=
  .call target (v + 1) (if v + 1 = 3 then .panic else .ret 5) fun r => .ret (r.getD 0)

/-- Fuzzing an input whose nested panic is caught is a crash. -/
example : (runHarness (setting [c%"TEST_FUZZ"] [2]) target body start).1 = .crash := by rfl

/-- Replaying it is a success, and the nested call is not recorded. -/
example : (runHarness (setting [c%"TEST_FUZZ", c%"TEST_FUZZ_REPLAY"] [2]) target body start).2.log =
    [.readStdin, .call 2, .body 2, .body 3, .panicked (.other 7), .showRet (some 0) false] := by rfl

/-- Fuzzing without a panic: the hook that was there before is lost. -/
example : (runHarness (setting [c%"TEST_FUZZ"] [1]) target body start).2.hook = .standard ∧ start.hook = .other 7 :=
  ⟨rfl, rfl⟩

/-- Without TEST_FUZZ the harness is inert. -/
example : (runHarness (setting [] [1]) target body start).2.log = [.hint] := by rfl

/-- Called from a test without TEST_FUZZ, three things are recorded, then the body runs. -/
example : (callInstrumented (setting [] []) target 1 ((body 1).run (setting [c%"TEST_FUZZ"] [])) start).2.log.take 4 =
    [.recorded .implGenericArgs, .recorded .genericArgs, .recorded .args, .body 1] := by decide +kernel

end HarnessDemo

end TF
