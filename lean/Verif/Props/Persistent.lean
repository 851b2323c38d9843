import Verif.Props.Harness

/-! # Persistent mode, and `execute_with`: C74, C75 -/

namespace TF

open Spec

variable {V R : Type}

theorem plain_noErr (p : Prog V R) : (∀ e, plain p ≠ .err e) ∧ ∀ n, plain p ≠ .exit n := by
  induction p with
  | ret r => simp [plain]
  | panic => simp [plain]
  | resume => simp [plain]
  | die => simp [plain]
  | touch f k ih => exact ih
  | call t v body k ihb ihk =>
    unfold plain
    cases hb : plain body with
    | ok r => exact ihk (some r)
    | panic => exact ihk none
    | crash => simp
    | err e => exact absurd hb (ihb.1 e)
    | exit n => exact absurd hb (ihb.2 n)

/-- What `afl::fuzz!` does with the inputs of a process whose hook aborts it. -/
theorem fuzzInputs_spec (c : Setting) (t : Target V) (body : V → Prog V R) (hc : c.test = true)
    (h : On c.ctx.env c%"TEST_FUZZ") (l : List Bytes) (s : Proc V R) (hs : s.hook = .abort) :
    ∃ x, fuzzInputs t (fun v => callInstrumented c t v ((body v).run c)) l s = x ∧
    ∃ evs, x.2.log = s.log ++ evs ∧ x.2.world.tick = s.world.tick ∧ x.2.hook = .abort ∧
      (∀ a ∈ evs, ¬ IsRecord a) ∧ hints evs = 0 ∧
      ((∀ b ∈ l, ¬ Fatal t body b) → x.1 = .ok () ∧ calls evs = l.filterMap t.de) ∧
      ∀ pre b post, l = pre ++ b :: post → (∀ b ∈ pre, ¬ Fatal t body b) → Fatal t body b →
        x.1 = .crash ∧ calls evs = (pre ++ [b]).filterMap t.de := by
  induction l generalizing s with
  | nil =>
    refine ⟨_, rfl, [], by simp [fuzzInputs], rfl, hs, by simp, rfl, fun _ => ⟨rfl, rfl⟩, fun pre b post hl => ?_⟩
    simp at hl
  | cons a l ih =>
    rw [fuzzInputs]
    cases hd : t.de a with
    | none =>
      obtain ⟨x, hx, evs, h1, h2, h3, h4, h5, h6, h7⟩ := ih (s.note [.readStdin]) hs
      refine ⟨x, hx, .readStdin :: evs, by simp [h1, Proc.note], h2, h3, ?_, by simpa [hints] using h5, fun hf => ?_,
        fun pre b post hl hp hb => ?_⟩
      · intro a ha
        rcases List.mem_cons.mp ha with rfl | ha
        · exact id
        · exact h4 a ha
      · have := h6 fun b hb => hf b (List.mem_cons_of_mem _ hb)
        exact ⟨this.1, by simp [calls, this.2, hd]⟩
      · cases pre with
        | nil =>
          simp only [List.nil_append, List.cons.injEq] at hl
          obtain ⟨rfl, rfl⟩ := hl
          obtain ⟨v, hv, -⟩ := hb
          rw [hd] at hv
          cases hv
        | cons y pre =>
          simp only [List.cons_append, List.cons.injEq] at hl
          obtain ⟨rfl, rfl⟩ := hl
          have := h7 pre b post rfl (fun b hb => hp b (List.mem_cons_of_mem _ hb)) hb
          exact ⟨this.1, by simpa [calls, hd] using this.2⟩
    | some v =>
      obtain ⟨l1, g1, g2, g3, g4, g5, g6, g7, g8⟩ := harness_call c t v (body v) (s.note [.readStdin, .call v]) hc h
      have e2 : (s.note [.readStdin, .call v]).hook = .abort := hs
      simp only
      rw [e2] at g2
      generalize callInstrumented c t v ((body v).run c) (s.note [.readStdin, .call v]) = y at g1 g2 g3 g4
      obtain ⟨o, s'⟩ := y
      simp only at g1 g2 g3 g4
      have hfatal : Fatal t body a ↔ (raises (body v) = true ∨ ∀ r, plain (body v) ≠ .ok r) := by
        constructor
        · rintro ⟨w, hw, hr⟩
          rw [hd] at hw
          cases hw
          exact hr
        · exact fun hr => ⟨v, hd, hr⟩
      have hlog : s'.log = s.log ++ (.readStdin :: .call v :: .body v :: l1) := by simp [g1, Proc.note]
      have hrec : ∀ a ∈ (.readStdin :: .call v :: .body v :: l1 : List (Ev V R)), ¬ IsRecord a := by
        intro a ha
        simp only [List.mem_cons] at ha
        rcases ha with rfl | rfl | rfl | ha
        · exact id
        · exact id
        · exact id
        · exact g8 a ha
      have hcalls : calls (.readStdin :: .call v :: .body v :: l1 : List (Ev V R)) = [v] := by
        simp [calls, calls_inner g5]
      have hhints : hints (.readStdin :: .call v :: .body v :: l1 : List (Ev V R)) = 0 := by
        simp [hints, hints_inner g5]
      by_cases hf : Fatal t body a
      · -- the process ends here
        have ho : o = .panic ∨ o = .crash := by
          rw [g2, outcome]
          split
          · exact .inr rfl
          · rename_i hr
            rcases hfatal.mp hf with hh | hh
            · exact absurd ⟨rfl, hh⟩ hr
            · rcases hp : plain (body v) with r | e | _ | n | _
              · exact absurd hp (hh r)
              · exact absurd hp ((plain_noErr (body v)).1 e)
              · exact .inl rfl
              · exact absurd hp ((plain_noErr (body v)).2 n)
              · exact .inr rfl
        refine ⟨(.crash, s'), by rcases ho with rfl | rfl <;> rfl, _, hlog, g4, g3.trans hs, hrec, hhints, fun hn => ?_,
          fun pre b post hl hp hb => ?_⟩
        · exact absurd hf (hn a List.mem_cons_self)
        · cases pre with
          | nil =>
            simp only [List.nil_append, List.cons.injEq] at hl
            obtain ⟨rfl, rfl⟩ := hl
            exact ⟨rfl, by simp [hcalls, hd]⟩
          | cons y pre =>
            simp only [List.cons_append, List.cons.injEq] at hl
            obtain ⟨rfl, rfl⟩ := hl
            exact absurd hf (hp a List.mem_cons_self)
      · have hok : ∃ r, o = .ok r := by
          rw [hfatal, not_or] at hf
          have := hf.2
          rw [g2, outcome, if_neg (fun hh => hf.1 hh.2)]
          exact Classical.not_forall_not.mp this
        obtain ⟨r, rfl⟩ := hok
        obtain ⟨x, hx, evs, h1, h2, h3, h4, h5, h6, h7⟩ := ih s' (g3.trans hs)
        refine ⟨x, hx, (.readStdin :: .call v :: .body v :: l1) ++ evs, by rw [h1, hlog, List.append_assoc], h2.trans g4, h3,
          ?_, by rw [hints_append, hhints, h5], fun hn => ?_, fun pre b post hl hp hb => ?_⟩
        · intro a ha
          exact (List.mem_append.mp ha).elim (hrec a) (h4 a)
        · have := h6 fun b hb => hn b (List.mem_cons_of_mem _ hb)
          exact ⟨this.1, by rw [calls_append, hcalls, this.2]; simp [hd]⟩
        · cases pre with
          | nil =>
            simp only [List.nil_append, List.cons.injEq] at hl
            obtain ⟨rfl, rfl⟩ := hl
            exact absurd hb hf
          | cons y pre =>
            simp only [List.cons_append, List.cons.injEq] at hl
            obtain ⟨rfl, rfl⟩ := hl
            have := h7 pre b post rfl (fun b hb => hp b (List.mem_cons_of_mem _ hb)) hb
            exact ⟨this.1, by rw [calls_append, hcalls, this.2]; simp [hd]⟩


/-- The rest of `entry` if `TEST_FUZZ` is on. -/
theorem persistent_on (c : Setting) (t : Target V) (body : V → Prog V R) (s : Proc V R) (ht : hasEntry t.macro_ = true)
    (h : On c.ctx.env c%"TEST_FUZZ") :
    runPersistent c t body s =
      (Code.cond (.or .coverage (.or .display .replay))
        (.when .coverage (warnIfFunctionIsNontrivial t.macro_) ;; .nop ;; .when .display .nop ;;
          .when (.or .coverage .replay) (.fuzzLoop ;; .when .replay .nop))
        (.setAbortHook ;; .nop ;; .fuzzLoop ;; .takeHook)).exec c t
          (fun v => callInstrumented c t v ((body v).run c)) ⟨none, none⟩ (warnedState s) := by
  have hg : (Guard.testFuzz.eval c.ctx.env) = true := (eval_testFuzz _).mpr h
  have hg' : testFuzzEnabled c.ctx.env = true := hg
  unfold runPersistent persistentEntryTest
  rw [if_pos ht, persistentArgsEntry, argsEntryFrom, exec_andThen _ _ _ _ _ _ _ _ _ (exec_warn ..), exec_when, hg, hg']
  simp [warnedState]

/-! ## C74 -/

/-- Fuzzing in persistent mode, one process takes input after input. If the target survives all of them, it has been
called with the arguments each input decodes to, in order and once for each, inputs that do not decode being skipped; the
process succeeds. If there is an input that it does not survive, it has been called for the inputs up to and including the
first such input, and the process has crashed. Nothing is recorded. -/
theorem C74_persistent (c : Setting) (t : Target V) (body : V → Prog V R) (s : Proc V R) (ht : hasEntry t.macro_ = true)
    (hc : c.test = true) (h : Fuzzing c.ctx.env) :
    ∃ evs, (runPersistent c t body s).2.log = s.log ++ evs ∧ (∀ a ∈ evs, ¬ IsRecord a) ∧
      (runPersistent c t body s).2.world.tick = s.world.tick ∧
      ((∀ b ∈ c.inputs, ¬ Fatal t body b) →
        (∃ f, (runPersistent c t body s).1 = .ok f) ∧ (runPersistent c t body s).2.hook = .standard ∧
          calls evs = c.inputs.filterMap t.de) ∧
      ∀ pre b post, c.inputs = pre ++ b :: post → (∀ b ∈ pre, ¬ Fatal t body b) → Fatal t body b →
        (runPersistent c t body s).1 = .crash ∧ calls evs = (pre ++ [b]).filterMap t.de := by
  obtain ⟨h1, h2, h3, h4⟩ := h
  obtain ⟨x, hx, evs, e1, e2, e3, e4, -, e5, e6⟩ := fuzzInputs_spec c t body hc h1 c.inputs
    { s with warned := true, hook := .abort } rfl
  have hr : runPersistent c t body s = (match withFrame (⟨none, none⟩ : Frame V R) x with
      | (.ok f, s) => (.ok f, { s with hook := .standard })
      | r => r) := by
    rw [persistent_on c t body s ht h1, Code.exec, modes_false h2 h3 h4]
    simp only [Bool.false_eq_true, if_false, Code.exec, warnedState]
    rw [hx]
    obtain ⟨o, s'⟩ := x
    cases o <;> rfl
  obtain ⟨o, s'⟩ := x
  simp only at e1 e2 e3 e5 e6
  rw [hr]
  refine ⟨evs, ?_, e4, ?_, fun hf => ?_, fun pre b post hl hp hb => ?_⟩
  · cases o <;> exact e1
  · cases o <;> exact e2
  · obtain ⟨rfl, hcalls⟩ := e5 hf
    exact ⟨⟨_, rfl⟩, rfl, hcalls⟩
  · obtain ⟨rfl, hcalls⟩ := e6 pre b post hl hp hb
    exact ⟨rfl, hcalls⟩

/-- There is an input that the target does not survive, or there is none. -/
theorem fatal_cases (t : Target V) (body : V → Prog V R) (l : List Bytes) :
    (∀ b ∈ l, ¬ Fatal t body b) ∨
      ∃ pre b post, l = pre ++ b :: post ∧ (∀ b ∈ pre, ¬ Fatal t body b) ∧ Fatal t body b := by
  induction l with
  | nil => exact .inl (by simp)
  | cons a l ih =>
    by_cases ha : Fatal t body a
    · exact .inr ⟨[], a, l, rfl, by simp, ha⟩
    · rcases ih with ih | ⟨pre, b, post, rfl, h1, h2⟩
      · refine .inl fun b hb => ?_
        rcases List.mem_cons.mp hb with rfl | hb
        · exact ha
        · exact ih b hb
      · refine .inr ⟨a :: pre, b, post, rfl, fun b hb => ?_, h2⟩
        rcases List.mem_cons.mp hb with rfl | hb
        · exact ha
        · exact h1 b hb

/-- A process that is not in persistent mode survives an input just if the target does. -/
theorem survives_iff (c : Setting) (t : Target V) (body : V → Prog V R) (s : Proc V R) (ht : hasEntry t.macro_ = true)
    (hc : c.test = true) (h : Fuzzing c.ctx.env) :
    (∃ f, (runHarness c t body s).1 = .ok f) ↔ ¬ Fatal t body c.stdin := by
  cases hv : t.de c.stdin with
  | none =>
    refine ⟨fun _ => ?_, fun _ => (C11_undecodable c t body s h.1 hv).1⟩
    rintro ⟨v, hv', -⟩
    rw [hv] at hv'
    cases hv'
  | some v =>
    obtain ⟨l, -, -, -, -, -, -, k1, k2, k3⟩ := fuzzing_spec c t body s ht hc h v hv
    have hfatal : Fatal t body c.stdin ↔ (raises (body v) = true ∨ ∀ r, plain (body v) ≠ .ok r) := by
      constructor
      · rintro ⟨w, hw, hr⟩
        rw [hv] at hw
        cases hw
        exact hr
      · exact fun hr => ⟨v, hv, hr⟩
    rw [hfatal]
    cases hr : raises (body v) with
    | true =>
      rw [k3 (by simp [outcome, hr])]
      simp
    | false =>
      have ho : outcome .abort (body v) = plain (body v) := by simp [outcome, hr]
      rw [ho] at k1 k2 k3
      cases hp : plain (body v) with
      | ok r => simp [(k1 r hp).1]
      | panic => simp [k2 hp]
      | crash => simp [k3 hp]
      | err e => exact absurd hp ((plain_noErr _).1 e)
      | exit n => exact absurd hp ((plain_noErr _).2 n)

/-- Persistent mode finds what one process per input would find: the process succeeds just if each of the processes that
are started for the inputs one by one would succeed, and crashes otherwise. -/
theorem C74_agrees (c : Setting) (t : Target V) (body : V → Prog V R) (s : Proc V R) (ht : hasEntry t.macro_ = true)
    (hc : c.test = true) (h : Fuzzing c.ctx.env) :
    ((∃ f, (runPersistent c t body s).1 = .ok f) ↔
      ∀ b ∈ c.inputs, ∀ s', ∃ f, (runHarness { c with stdin := b } t body s').1 = .ok f) ∧
    ((∃ f, (runPersistent c t body s).1 = .ok f) ∨ (runPersistent c t body s).1 = .crash) := by
  obtain ⟨evs, -, -, -, k1, k2⟩ := C74_persistent c t body s ht hc h
  have hs : ∀ b s', (∃ f, (runHarness { c with stdin := b } t body s').1 = .ok f) ↔ ¬ Fatal t body b :=
    fun b s' => survives_iff { c with stdin := b } t body s' ht hc h
  rcases fatal_cases t body c.inputs with hf | ⟨pre, b, post, hl, hp, hb⟩
  · exact ⟨⟨fun _ b hb s' => (hs b s').mpr (hf b hb), fun _ => (k1 hf).1⟩, .inl (k1 hf).1⟩
  · have hcr := (k2 pre b post hl hp hb).1
    refine ⟨⟨fun ⟨f, hf⟩ => ?_, fun ha => ?_⟩, .inr hcr⟩
    · rw [hcr] at hf
      cases hf
    · exact absurd hb ((hs b s).mp (ha b (by simp [hl]) s))

/-- Compiled for persistent mode, a harness that is to display only does nothing at all: it shows nothing. -/
theorem C74_displays_nothing (c : Setting) (t : Target V) (body : V → Prog V R) (s : Proc V R) (h : Displaying c.ctx.env) :
    (∃ f, (runPersistent c t body s).1 = .ok f) ∧ (runPersistent c t body s).2.log = s.log ∧
      (runPersistent c t body s).2.world = s.world ∧ (runPersistent c t body s).2.hook = s.hook := by
  obtain ⟨h1, h2, h3, h4⟩ := h
  by_cases ht : hasEntry t.macro_ = true
  · have g1 : (Guard.coverage.eval c.ctx.env) = false := by
      rw [← Bool.not_eq_true, eval_coverage]; exact h3
    have g2 : ((Guard.or .coverage .replay).eval c.ctx.env) = false := not_enabled_of_displaying h3 h4
    rw [persistent_on c t body s ht h1, Code.exec, if_pos (modes_true (.inr (.inl h2)))]
    simp only [Code.exec, Code.when, g1, g2]
    simp only [Bool.false_eq_true, if_false, ite_self]
    exact ⟨⟨_, rfl⟩, rfl, rfl, rfl⟩
  · unfold runPersistent persistentEntryTest
    rw [if_neg ht]
    exact ⟨⟨_, rfl⟩, rfl, rfl, rfl⟩

/-- User code shows nothing of its own. -/
theorem run_silent (c : Setting) (hc : c.test = true) (h : On c.ctx.env c%"TEST_FUZZ") (p : Prog V R) (s : Proc V R) :
    ∃ l, (p.run c s).2.log = s.log ++ l ∧ ∀ a ∈ l, ¬ Shows a := by
  induction p generalizing s with
  | ret r => exact ⟨[], by simp [Prog.run], by simp⟩
  | panic =>
    rw [Prog.run, raise]
    split <;> exact ⟨_, rfl, by simp [Shows]⟩
  | resume => exact ⟨[], by simp [Prog.run], by simp⟩
  | die => exact ⟨[], by simp [Prog.run], by simp⟩
  | touch f k ih => exact ih _
  | call t v body k ihb ihk =>
    rw [Prog.run, C07_not_due c t v _ s (not_due c hc h _)]
    obtain ⟨l, h1, h2⟩ := ihb { s with log := s.log ++ [.body v] }
    generalize body.run c { s with log := s.log ++ [.body v] } = x at h1
    obtain ⟨o, s'⟩ := x
    have hl : s'.log = s.log ++ (.body v :: l) := by simpa using h1
    have hs : ∀ a ∈ (.body v :: l : List (Ev V R)), ¬ Shows a := by
      intro a ha
      rcases List.mem_cons.mp ha with rfl | ha
      · exact id
      · exact h2 a ha
    cases o with
    | ok r =>
      obtain ⟨l', k1, k2⟩ := ihk (some r) s'
      exact ⟨(.body v :: l) ++ l', by rw [← List.append_assoc, ← hl]; exact k1,
        fun a ha => (List.mem_append.mp ha).elim (hs a) (k2 a)⟩
    | panic =>
      obtain ⟨l', k1, k2⟩ := ihk none s'
      exact ⟨(.body v :: l) ++ l', by rw [← List.append_assoc, ← hl]; exact k1,
        fun a ha => (List.mem_append.mp ha).elim (hs a) (k2 a)⟩
    | _ => exact ⟨_, hl, hs⟩

theorem fuzzInputs_silent (c : Setting) (t : Target V) (body : V → Prog V R) (hc : c.test = true)
    (h : On c.ctx.env c%"TEST_FUZZ") (l : List Bytes) (s : Proc V R) :
    ∃ evs, (fuzzInputs t (fun v => callInstrumented c t v ((body v).run c)) l s).2.log = s.log ++ evs ∧
      ∀ a ∈ evs, ¬ Shows a := by
  induction l generalizing s with
  | nil => exact ⟨[], by simp [fuzzInputs], by simp⟩
  | cons b l ih =>
    rw [fuzzInputs]
    cases hd : t.de b with
    | none =>
      obtain ⟨evs, h1, h2⟩ := ih (s.note [.readStdin])
      refine ⟨.readStdin :: evs, h1.trans (by simp [Proc.note]), fun a ha => ?_⟩
      rcases List.mem_cons.mp ha with rfl | ha
      · exact id
      · exact h2 a ha
    | some v =>
      simp only
      rw [C07_not_due c t v _ _ (not_due c hc h _)]
      obtain ⟨l1, h1, h2⟩ := run_silent c hc h (body v)
        { s.note [.readStdin, .call v] with log := (s.note [.readStdin, .call v]).log ++ [.body v] }
      generalize (body v).run c
        { s.note [.readStdin, .call v] with log := (s.note [.readStdin, .call v]).log ++ [.body v] } = x at h1
      obtain ⟨o, s'⟩ := x
      have hl : s'.log = s.log ++ (.readStdin :: .call v :: .body v :: l1) := by simpa [Proc.note] using h1
      have hs : ∀ a ∈ (.readStdin :: .call v :: .body v :: l1 : List (Ev V R)), ¬ Shows a := by
        intro a ha
        simp only [List.mem_cons] at ha
        rcases ha with rfl | rfl | rfl | ha
        · exact id
        · exact id
        · exact id
        · exact h2 a ha
      cases o with
      | ok r =>
        obtain ⟨l', k1, k2⟩ := ih s'
        exact ⟨(.readStdin :: .call v :: .body v :: l1) ++ l', by rw [← List.append_assoc, ← hl]; exact k1,
          fun a ha => (List.mem_append.mp ha).elim (hs a) (k2 a)⟩
      | _ => exact ⟨_, hl, hs⟩

/-- And one that is to replay or to measure coverage calls the target in the same way as when fuzzing – a panic is a crash,
even one that is caught – but shows neither arguments nor a result. -/
theorem C74_replays_silently (c : Setting) (t : Target V) (body : V → Prog V R) (s : Proc V R)
    (ht : hasEntry t.macro_ = true) (hc : c.test = true) (h : Replaying c.ctx.env) :
    ∃ evs, (runPersistent c t body s).2.log = s.log ++ evs ∧ (∀ a ∈ evs, ¬ IsRecord a ∧ ¬ Shows a) ∧
      ((∀ b ∈ c.inputs, ¬ Fatal t body b) →
        (∃ f, (runPersistent c t body s).1 = .ok f) ∧ calls evs = c.inputs.filterMap t.de) ∧
      ∀ pre b post, c.inputs = pre ++ b :: post → (∀ b ∈ pre, ¬ Fatal t body b) → Fatal t body b →
        (runPersistent c t body s).1 = .crash ∧ calls evs = (pre ++ [b]).filterMap t.de := by
  obtain ⟨h1, hm⟩ := h
  have g2 : ((Guard.or .coverage .replay).eval c.ctx.env) = true := enabled_of_replaying hm
  obtain ⟨ev0, s0, hs0, hs1, hs2⟩ : ∃ ev0 : List (Ev V R), ∃ s0, (Code.when .coverage (warnIfFunctionIsNontrivial t.macro_)).exec c t
      (fun v => callInstrumented c t v ((body v).run c)) ⟨none, none⟩ (warnedState s) = (.ok ⟨none, none⟩, s0) ∧
      s0.log = s.log ++ ev0 ∧ (ev0 = [] ∨ ev0 = [.warnNontrivial]) := by
    rw [exec_when, warnIfFunctionIsNontrivial]
    split
    · split
      · exact ⟨[.warnNontrivial], _, rfl, rfl, .inr rfl⟩
      · exact ⟨[], _, rfl, by simp [warnedState], .inl rfl⟩
    · exact ⟨[], _, rfl, by simp [warnedState], .inl rfl⟩
  obtain ⟨x, hx, evs, e1, e2, e3, e4, -, e5, e6⟩ := fuzzInputs_spec c t body hc h1 c.inputs { s0 with hook := .abort } rfl
  obtain ⟨evs', e1', e7⟩ := fuzzInputs_silent c t body hc h1 c.inputs { s0 with hook := .abort }
  rw [hx, e1] at e1'
  cases List.append_cancel_left e1'
  have hr : runPersistent c t body s = withFrame ⟨none, none⟩ x := by
    rw [persistent_on c t body s ht h1, Code.exec, if_pos (modes_true (by rcases hm with hm | hm <;> simp [hm])),
      exec_andThen _ _ _ _ _ _ _ _ _ hs0]
    simp only [Code.exec, Code.when, g2, if_true, ite_self]
    rw [hx]
    obtain ⟨o, s'⟩ := x
    cases o <;> rfl
  rw [hr]
  have hc0 : calls ev0 = [] := by rcases hs2 with rfl | rfl <;> rfl
  refine ⟨ev0 ++ evs, ?_, fun a ha => ?_, fun hf => ?_, fun pre b post hl hp hb => ?_⟩
  · obtain ⟨o, s'⟩ := x
    have : s'.log = s.log ++ (ev0 ++ evs) := by rw [← List.append_assoc, ← hs1]; exact e1
    cases o <;> exact this
  · rcases List.mem_append.mp ha with ha | ha
    · rcases hs2 with rfl | rfl
      · simp at ha
      · simp at ha; subst ha; exact ⟨id, id⟩
    · exact ⟨e4 a ha, e7 a ha⟩
  · obtain ⟨o, s'⟩ := x
    obtain ⟨rfl, hcalls⟩ := e5 hf
    exact ⟨⟨_, rfl⟩, by rw [calls_append, hc0, hcalls]; rfl⟩
  · obtain ⟨o, s'⟩ := x
    obtain ⟨rfl, hcalls⟩ := e6 pre b post hl hp hb
    exact ⟨rfl, by rw [calls_append, hc0, hcalls]; rfl⟩

/-! ## C75 -/

/-- What the harness runs if `execute_with` names the function `w`. -/
def Spec.inEnvironment (w : ((Option R → Prog V R) → Prog V R) → Prog V R) (t : Target V) (body : V → Prog V R) (v : V) :
    Prog V R :=
  w fun k => .call t v (body v) k

/-- Without `execute_with`, the harness is as described by C11 and C12. -/
theorem runHarnessIn_none (c : Setting) (t : Target V) (body : V → Prog V R) (s : Proc V R) :
    runHarnessIn c t none body s = runHarness c t body s := rfl

/-- What user code makes of a process in which nothing is recorded. -/
theorem run_unrecorded (c : Setting) (hc : c.test = true) (h : On c.ctx.env c%"TEST_FUZZ") (p : Prog V R) (s : Proc V R) :
    ∃ l, (p.run c s).2.log = s.log ++ l ∧ (p.run c s).1 = outcome s.hook p ∧ (p.run c s).2.hook = s.hook ∧
      (∀ a ∈ l, ¬ IsRecord a) := by
  obtain ⟨l, hl⟩ := run_spec c p s
  have hq := hl.quiet (not_due c hc h)
  exact ⟨l, hl.ext.log, hl.out fun k hk => hq.1 _ hk trivial, hl.ext.hook, hq.1⟩

/-- Fuzzing with `execute_with`, the function decides. If a panic begins in it, or in the target while it calls it, the
process aborts; if it returns a value, that value is the result. Nothing is recorded. -/
theorem C75_fuzzing (c : Setting) (t : Target V) (w : ((Option R → Prog V R) → Prog V R) → Prog V R) (body : V → Prog V R)
    (s : Proc V R) (ht : hasEntry t.macro_ = true) (hc : c.test = true) (h : Fuzzing c.ctx.env) (v : V)
    (hv : t.de c.stdin = some v) :
    (raises (inEnvironment w t body v) = true → (runHarnessIn c t (some w) body s).1 = .crash) ∧
    (raises (inEnvironment w t body v) = false → ∀ r, plain (inEnvironment w t body v) = .ok r →
      (runHarnessIn c t (some w) body s).1 = .ok ⟨some v, some r⟩ ∧
        (runHarnessIn c t (some w) body s).2.hook = .standard) ∧
    ∃ l, (runHarnessIn c t (some w) body s).2.log = s.log ++ l ∧ ∀ a ∈ l, ¬ IsRecord a := by
  have hr : runHarnessIn c t (some w) body s = _ :=
    entry_fuzzing c t (callInEnvironment (some w) t body c) s ht h
  rw [hr, hv]
  show (_ → (afterCall ((inEnvironment w t body v).run c _) v _).1 = _) ∧
    (_ → ∀ r, _ → (afterCall ((inEnvironment w t body v).run c _) v _).1 = _ ∧
      (afterCall ((inEnvironment w t body v).run c _) v _).2.hook = _) ∧
    ∃ l, (afterCall ((inEnvironment w t body v).run c _) v _).2.log = _ ∧ _
  obtain ⟨l, h1, h2, h3, h4⟩ := run_unrecorded c hc h.1 (inEnvironment w t body v)
    { s with warned := true, hook := .abort, log := s.log ++ [.readStdin, .call v] }
  generalize (inEnvironment w t body v).run c
    { s with warned := true, hook := .abort, log := s.log ++ [.readStdin, .call v] } = x at h1 h2 h3
  obtain ⟨o, s'⟩ := x
  simp only at h1 h2 h3
  refine ⟨fun hp => ?_, fun hp r hpr => ?_, [.readStdin, .call v] ++ l, ?_, ?_⟩
  · simp only [outcome, hp, and_self, if_true] at h2
    subst h2
    rfl
  · simp only [outcome, hp, hpr, Bool.false_eq_true, and_false, if_false] at h2
    subst h2
    exact ⟨rfl, rfl⟩
  · rw [← List.append_assoc]
    cases o <;> exact h1
  · intro a ha
    simp only [List.cons_append, List.nil_append, List.mem_cons] at ha
    rcases ha with rfl | rfl | ha
    · exact id
    · exact id
    · exact h4 a ha

/-- Replaying with `execute_with`: the result shown is what the function returns, and the test fails just if a panic gets
out of the function. -/
theorem C75_replaying (c : Setting) (t : Target V) (w : ((Option R → Prog V R) → Prog V R) → Prog V R) (body : V → Prog V R)
    (s : Proc V R) (ht : hasEntry t.macro_ = true) (hc : c.test = true) (h : On c.ctx.env c%"TEST_FUZZ")
    (hr : On c.ctx.env c%"TEST_FUZZ_REPLAY") (hh : s.hook ≠ .abort) (v : V) (hv : t.de c.stdin = some v) :
    (plain (inEnvironment w t body v) = .panic → (runHarnessIn c t (some w) body s).1 = .panic) ∧
    ∀ r, plain (inEnvironment w t body v) = .ok r → (runHarnessIn c t (some w) body s).1 = .ok ⟨some v, some r⟩ ∧
      ∃ l pretty, (runHarnessIn c t (some w) body s).2.log = s.log ++ l ++ [.showRet (some r) pretty] ∧
        ∀ r' b, .showRet r' b ∉ l := by
  have he : runHarnessIn c t (some w) body s = _ :=
    entry_other c t (callInEnvironment (some w) t body c) s ht h (.inr (.inr hr))
  rw [he, if_pos (enabled_of_replaying (.inr hr)), hv]
  show (_ → (afterCall ((inEnvironment w t body v).run c _) v _).1 = _) ∧
    ∀ r, _ → (afterCall ((inEnvironment w t body v).run c _) v _).1 = _ ∧
      ∃ l pretty, (afterCall ((inEnvironment w t body v).run c _) v _).2.log = _ ∧ _
  obtain ⟨l, h1, h2, -, -⟩ := run_unrecorded c hc h (inEnvironment w t body v)
    { s with warned := true, log := s.log ++ (opening c t ++ [.call v]) }
  obtain ⟨l', h1', h5⟩ := run_silent c hc h (inEnvironment w t body v)
    { s with warned := true, log := s.log ++ (opening c t ++ [.call v]) }
  rw [h1] at h1'
  cases List.append_cancel_left h1'
  generalize (inEnvironment w t body v).run c
    { s with warned := true, log := s.log ++ (opening c t ++ [.call v]) } = x at h1 h2
  obtain ⟨o, s'⟩ := x
  simp only [outcome, hh, false_and, if_false] at h1 h2
  refine ⟨fun hp => ?_, fun r hp => ?_⟩
  · rw [hp] at h2
    subst h2
    rfl
  · rw [hp] at h2
    subst h2
    refine ⟨rfl, opening c t ++ [.call v] ++ l, prettyPrintEnabled c.ctx.env, ?_, fun r' b hb => ?_⟩
    · have : replayEnabled c.ctx.env = true := (eval_replay _).mpr hr
      simp [afterCall, Proc.note, closing_, this, h1]
    · simp only [List.mem_append, List.mem_singleton, reduceCtorEq, or_false] at hb
      rcases hb with hb | hb
      · simp only [opening, List.mem_append] at hb
        rcases hb with (hb | hb) | hb
        · split at hb
          · split at hb <;> simp at hb
          · simp at hb
        · simp at hb
        · split at hb <;> simp at hb
      · exact h5 _ hb trivial

/-- User code that is not recorded does the same wherever it finds the files. -/
theorem run_world (c : Setting) (hc : c.test = true) (h : On c.ctx.env c%"TEST_FUZZ") (p : Prog V R) (s : Proc V R)
    (w : World) : ∃ w', p.run c { s with world := w } = ((p.run c s).1, { (p.run c s).2 with world := w' }) := by
  induction p generalizing s w with
  | ret r => exact ⟨w, rfl⟩
  | panic =>
    refine ⟨w, ?_⟩
    rw [Prog.run, Prog.run, raise_eq, raise_eq]
    rfl
  | resume => exact ⟨w, rfl⟩
  | die => exact ⟨w, rfl⟩
  | touch f k ih =>
    rw [Prog.run, Prog.run]
    exact ih { s with world := { s.world with fs := f s.world.fs } } { w with fs := f w.fs }
  | call t v body k ihb ihk =>
    rw [Prog.run, Prog.run, C07_not_due c t v _ _ (not_due c hc h _), C07_not_due c t v _ _ (not_due c hc h _)]
    obtain ⟨w1, h1⟩ := ihb { s with log := s.log ++ [.body v] } w
    have h1' : body.run c { s with world := w, log := s.log ++ [.body v] } = _ := h1
    simp only at h1' ⊢
    rw [h1']
    generalize body.run c { s with log := s.log ++ [.body v] } = x
    obtain ⟨o, s'⟩ := x
    cases o with
    | ok r => exact ihk (some r) s' w1
    | panic => exact ihk none s' w1
    | _ => exact ⟨w1, rfl⟩

/-- Return what the argument returned, or let its panic pass. -/
def Spec.passOn : Option R → Prog V R
  | some r => .ret r
  | none => .resume

/-- A function that sets something up, calls its argument, undoes what it did and returns what it got, or lets the panic
pass. -/
def Spec.around (setUp tearDown : FS → FS) : ((Option R → Prog V R) → Prog V R) → Prog V R :=
  fun closure => .touch setUp (closure fun r => .touch tearDown (passOn r))

theorem around_run (c : Setting) (hc : c.test = true) (h : On c.ctx.env c%"TEST_FUZZ") (f g : FS → FS) (t : Target V)
    (body : V → Prog V R) (v : V) (s : Proc V R) : ∃ w', callInEnvironment (some (around f g)) t body c v s =
      ((callInstrumented c t v ((body v).run c) s).1,
        { (callInstrumented c t v ((body v).run c) s).2 with world := w' }) := by
  show ∃ w', (Prog.touch f (.call t v (body v) fun r => .touch g (passOn r))).run c s = _
  rw [Prog.run, Prog.run, C07_not_due c t v _ _ (not_due c hc h _), C07_not_due c t v _ _ (not_due c hc h _)]
  obtain ⟨w1, h1⟩ := run_world c hc h (body v) { s with log := s.log ++ [.body v] } { s.world with fs := f s.world.fs }
  have h1' : (body v).run c { s with world := { s.world with fs := f s.world.fs }, log := s.log ++ [.body v] } = _ := h1
  simp only at h1' ⊢
  rw [h1']
  generalize (body v).run c { s with log := s.log ++ [.body v] } = x
  obtain ⟨o, s'⟩ := x
  cases o <;> exact ⟨_, rfl⟩

/-- With a function that sets something up, calls its argument and cleans up, the harness comes to the same result and
does the same things in the same order – reads, calls, what is shown, panics – as without `execute_with`. -/
theorem C75_around (c : Setting) (t : Target V) (f g : FS → FS) (body : V → Prog V R) (s : Proc V R)
    (ht : hasEntry t.macro_ = true) (hc : c.test = true) (h : On c.ctx.env c%"TEST_FUZZ") :
    (runHarnessIn c t (some (around f g)) body s).1 = (runHarness c t body s).1 ∧
      (runHarnessIn c t (some (around f g)) body s).2.log = (runHarness c t body s).2.log ∧
      (runHarnessIn c t (some (around f g)) body s).2.hook = (runHarness c t body s).2.hook := by
  by_cases hm : On c.ctx.env c%"TEST_FUZZ_COVERAGE" ∨ On c.ctx.env c%"TEST_FUZZ_DISPLAY" ∨ On c.ctx.env c%"TEST_FUZZ_REPLAY"
  · have he : runHarnessIn c t (some (around f g)) body s = _ :=
      entry_other c t (callInEnvironment (some (around f g)) t body c) s ht h hm
    rw [he, harness_other c t body s ht h hm]
    split
    · cases hd : t.de c.stdin with
      | none => exact ⟨rfl, rfl, rfl⟩
      | some v =>
        simp only
        obtain ⟨w', hw⟩ := around_run c hc h f g t body v
          { s with warned := true, log := s.log ++ (opening c t ++ [.call v]) }
        rw [hw]
        generalize callInstrumented c t v ((body v).run c)
          { s with warned := true, log := s.log ++ (opening c t ++ [.call v]) } = x
        obtain ⟨o, s'⟩ := x
        cases o <;> exact ⟨rfl, rfl, rfl⟩
    · exact ⟨rfl, rfl, rfl⟩
  · rw [not_or, not_or] at hm
    have he : runHarnessIn c t (some (around f g)) body s = _ :=
      entry_fuzzing c t (callInEnvironment (some (around f g)) t body c) s ht ⟨h, hm⟩
    rw [he, harness_fuzzing c t body s ht ⟨h, hm⟩]
    cases hd : t.de c.stdin with
    | none => exact ⟨rfl, rfl, rfl⟩
    | some v =>
      simp only
      obtain ⟨w', hw⟩ := around_run c hc h f g t body v
        { s with warned := true, hook := .abort, log := s.log ++ [.readStdin, .call v] }
      rw [hw]
      generalize callInstrumented c t v ((body v).run c)
        { s with warned := true, hook := .abort, log := s.log ++ [.readStdin, .call v] } = x
      obtain ⟨o, s'⟩ := x
      cases o <;> exact ⟨rfl, rfl, rfl⟩

/-! ## Cases -/

namespace HarnessDemo

/-- Inputs 1 (survived), none, 2 (a panic that the target would catch), 4 (never reached). -/
def fed : Setting := { setting [c%"TEST_FUZZ"] [] with inputs := [[1], [], [2], [4]] }

example : (runPersistent fed target body start).1 = .crash ∧ calls (runPersistent fed target body start).2.log = [1, 2] :=
  ⟨rfl, rfl⟩

example : Fatal target body [2] ∧ ¬ Fatal target body [1] ∧ ¬ Fatal target body [] := by
  refine ⟨⟨2, rfl, .inl rfl⟩, ?_, ?_⟩
  · rintro ⟨v, hv, h⟩
    cases hv
    rcases h with h | h
    · cases h
    · exact h 5 rfl
  · rintro ⟨v, hv, -⟩
    cases hv

/-- A process that is fed inputs that the target survives. -/
example : (runPersistent { fed with inputs := [[1], [], [4]] } target body start).2.log =
    [.readStdin, .call 1, .body 1, .body 2, .readStdin, .readStdin, .call 4, .body 4, .body 5] := rfl

/-- A function that does not call its argument. -/
example : (runHarnessIn (setting [c%"TEST_FUZZ", c%"TEST_FUZZ_REPLAY"] [2]) target (some fun _ => .ret 9) body start).2.log =
    [.readStdin, .call 2, .showRet (some 9) false] := rfl

/-- A function that calls its argument, and returns the result. -/
example : (runHarnessIn (setting [c%"TEST_FUZZ", c%"TEST_FUZZ_REPLAY"] [2]) target (some (around id id)) body start).2.log =
    [.readStdin, .call 2, .body 2, .body 3, .panicked (.other 7), .showRet (some 0) false] := rfl

end HarnessDemo

end TF
