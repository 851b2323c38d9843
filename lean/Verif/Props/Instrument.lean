import Verif.Spec.Instrument
import Verif.Props.Naming
import Verif.Props.Recording

/-! # Instrumented functions: C07, C65, and that fuzzing records nothing (C08) -/

namespace TF

open Spec

variable {V R : Type}

/-! ## Switches -/

theorem eval_testFuzz (e : Env) : (Guard.testFuzz.eval e = true) ↔ On e c%"TEST_FUZZ" := (C09_switches e).1
theorem eval_coverage (e : Env) : (Guard.coverage.eval e = true) ↔ On e c%"TEST_FUZZ_COVERAGE" := (C09_switches e).2.1
theorem eval_display (e : Env) : (Guard.display.eval e = true) ↔ On e c%"TEST_FUZZ_DISPLAY" := (C09_switches e).2.2.1
theorem eval_replay (e : Env) : (Guard.replay.eval e = true) ↔ On e c%"TEST_FUZZ_REPLAY" := (C09_switches e).2.2.2.2.1
theorem eval_write (e : Env) : (Guard.write.eval e = true) ↔ On e c%"TEST_FUZZ_WRITE" := (C09_switches e).2.2.2.2.2

theorem Proc.note_note (s : Proc V R) (a b : List (Ev V R)) : (s.note a).note b = s.note (a ++ b) := by
  simp [Proc.note]

theorem Proc.note_nil (s : Proc V R) : s.note [] = s := by simp [Proc.note]

/-! ## What a call does -/

/-- Sequencing. -/
def andThen {α : Type} (x : Out Unit × Proc V R) (k : Proc V R → Out α × Proc V R) : Out α × Proc V R :=
  match x with
  | (.ok _, s) => k s
  | (.err e, s) => (.err e, s)
  | (.panic, s) => (.panic, s)
  | (.exit n, s) => (.exit n, s)
  | (.crash, s) => (.crash, s)

/-- The recording part of a call. -/
def recording (c : Setting) (t : Target V) (v : V) (s : Proc V R) : Out Unit × Proc V R :=
  andThen (record c .implGenericArgs (writeImplGenericArgs c.ctx t.typeName (t.implTypes v)) s) fun s =>
  andThen (record c .genericArgs (writeGenericArgs c.ctx t.typeName (t.types v)) s) fun s =>
  if t.macro_.onlyGenericArgs then (.ok (), s) else record c .args (recordArgs c t v) s

theorem withFrame_eq (f : Frame V R) (x : Out Unit × Proc V R) : withFrame f x = andThen x fun s => (.ok f, s) := by
  obtain ⟨x, s⟩ := x
  cases x <;> rfl

theorem exec_seq (c : Setting) (t : Target V) (run : V → Proc V R → Out R × Proc V R) (a b : Code) (f f' s)
    (x : Out Unit × Proc V R) (h : a.exec c t run f s = andThen x fun s => (.ok f', s)) :
    (a ;; b).exec c t run f s = andThen x fun s => b.exec c t run f' s := by
  rw [Code.exec, h]
  obtain ⟨x, s⟩ := x
  cases x <;> rfl

theorem andThen_assoc {α : Type} (x : Out Unit × Proc V R) (k : Proc V R → Out Unit × Proc V R)
    (k' : Proc V R → Out α × Proc V R) : andThen (andThen x k) k' = andThen x fun s => andThen (k s) k' := by
  obtain ⟨x, s⟩ := x
  cases x <;> rfl

theorem exec_recording (c : Setting) (t : Target V) (run : V → Proc V R → Out R × Proc V R) (v : V) (r s) :
    (writeGenericArgsCode ;; writeArgsCode t.macro_).exec c t run ⟨some v, r⟩ s =
      andThen (recording c t v s) fun s => (.ok ⟨some v, r⟩, s) := by
  have h1 : writeGenericArgsCode.exec c t run ⟨some v, r⟩ s =
      andThen (andThen (record c .implGenericArgs (writeImplGenericArgs c.ctx t.typeName (t.implTypes v)) s) fun s =>
        record c .genericArgs (writeGenericArgs c.ctx t.typeName (t.types v)) s) fun s => (.ok ⟨some v, r⟩, s) := by
    have h0 : Code.writeImplGenericArgs.exec c t run ⟨some v, r⟩ s = _ := withFrame_eq _ _
    rw [writeGenericArgsCode, exec_seq c t run _ _ _ _ s _ h0, andThen_assoc]
    congr 1
  rw [exec_seq c t run _ _ _ _ s _ h1]
  unfold recording
  rw [andThen_assoc, andThen_assoc]
  congr 1
  funext s
  rw [andThen_assoc]
  congr 1
  funext s
  unfold writeArgsCode
  cases t.macro_.onlyGenericArgs
  · exact withFrame_eq _ _
  · rfl

open Classical in
/-- A call records if it has to and then runs the body. -/
theorem callInstrumented_eq (c : Setting) (t : Target V) (v : V) (body : Proc V R → Out R × Proc V R) (s : Proc V R) :
    callInstrumented c t v body s =
      andThen (if Due c.ctx.env c.test t.macro_.enableInProduction then recording c t v s else (.ok (), s))
        fun s => body (s.note [.body v]) := by
  have h1 : (writeGenericArgsAndArgs t.macro_).exec c t (fun _ => body) ⟨some v, none⟩ s =
      andThen (if c.test = true ∧ ¬ On c.ctx.env c%"TEST_FUZZ" then recording c t v s else (.ok (), s))
        fun s => (.ok ⟨some v, none⟩, s) := by
    unfold writeGenericArgsAndArgs Code.when
    rw [Code.exec]
    split
    · next ht =>
      rw [Code.exec]
      have hg : ((Guard.testFuzz.not.eval c.ctx.env) = true) ↔ ¬ On c.ctx.env c%"TEST_FUZZ" := by
        rw [Guard.eval, Bool.not_eq_true', ← Bool.not_eq_true, eval_testFuzz]
      split
      · next h => rw [if_pos ⟨ht, hg.mp h⟩]; exact exec_recording ..
      · next h => rw [if_neg fun hh => h (hg.mpr hh.2)]; rfl
    · next ht => rw [if_neg fun hh => ht hh.1]; rfl
  have h2 : ∀ s, (inProductionWriteGenericArgsAndArgs t.macro_).exec c t (fun _ => body) ⟨some v, none⟩ s =
      andThen (if c.test = false ∧ t.macro_.enableInProduction = true ∧ On c.ctx.env c%"TEST_FUZZ_WRITE"
        then recording c t v s else (.ok (), s)) fun s => (.ok ⟨some v, none⟩, s) := by
    intro s
    unfold inProductionWriteGenericArgsAndArgs Code.when
    split
    · next hp =>
      rw [Code.exec]
      split
      · next ht => rw [if_neg fun hh => by rw [ht] at hh; exact absurd hh.1 (by decide)]; rfl
      · next ht =>
        rw [Code.exec]
        split
        · next h => rw [if_pos ⟨by simpa using ht, hp, (eval_write _).mp h⟩]; exact exec_recording ..
        · next h => rw [if_neg fun hh => h ((eval_write _).mpr hh.2.2)]; rfl
    · next hp => rw [if_neg fun hh => hp hh.2.1]; rfl
  have h3 : ∀ s, returned (Code.stmts.exec c t (fun _ => body) ⟨some v, none⟩ s) = body (s.note [.body v]) := by
    intro s
    simp only [Code.exec]
    generalize body (s.note [.body v]) = x
    obtain ⟨x, s⟩ := x
    cases x <;> rfl
  unfold callInstrumented instrumentation
  rw [exec_seq c t _ _ _ _ _ s _ h1]
  have h4 : ∀ s, (inProductionWriteGenericArgsAndArgs t.macro_ ;; .stmts).exec c t (fun _ => body) ⟨some v, none⟩ s = _ :=
    fun s => exec_seq c t _ _ .stmts _ _ s _ (h2 s)
  simp only [h4]
  have hr : ∀ (x : Out Unit × Proc V R) (k : Proc V R → Out (Frame V R) × Proc V R),
      returned (andThen x k) = andThen x fun s => returned (k s) := by
    rintro ⟨x, s⟩ k
    cases x <;> rfl
  rw [hr]
  simp only [hr, h3]
  cases hT : c.test with
  | true =>
    by_cases h : On c.ctx.env c%"TEST_FUZZ"
    · have hD : ¬ Due c.ctx.env true t.macro_.enableInProduction := by rintro (hh | hh) <;> simp_all
      rw [if_neg fun hh => hh.2 h, if_neg hD]
      simp [andThen]
    · have hD : Due c.ctx.env true t.macro_.enableInProduction := .inl ⟨rfl, h⟩
      rw [if_pos ⟨rfl, h⟩, if_pos hD]
      simp [andThen]
  | false =>
    by_cases h : t.macro_.enableInProduction = true ∧ On c.ctx.env c%"TEST_FUZZ_WRITE"
    · have hD : Due c.ctx.env false t.macro_.enableInProduction := .inr ⟨rfl, h⟩
      rw [if_pos hD]
      simp [andThen, h]
    · have hD : ¬ Due c.ctx.env false t.macro_.enableInProduction := by rintro (hh | hh) <;> simp_all
      rw [if_neg hD]
      simp [andThen, h]

/-! ## C07 -/

/-- A call that has not to be recorded runs the body at once: no file is touched, nothing is recorded. -/
theorem C07_not_due (c : Setting) (t : Target V) (v : V) (body : Proc V R → Out R × Proc V R) (s : Proc V R)
    (h : ¬ Due c.ctx.env c.test t.macro_.enableInProduction) :
    callInstrumented c t v body s = body { s with log := s.log ++ [.body v] } := by
  rw [callInstrumented_eq, if_neg h]
  rfl

theorem record_ok {c : Setting} {k : RecKind} {x : IOm Unit} {s s' : Proc V R} (h : record c k x s = (.ok (), s')) :
    ∃ w, x c.plan s.world = (.ok (), w) ∧ s' = { s with world := w }.note [.recorded k] := by
  unfold record at h
  split at h
  · next w hx => cases h; exact ⟨w, hx, rfl⟩
  · cases h
  · unfold raise at h
    split at h <;> cases h

/-- How a recording fails: with a panic, or an abort, and an entry that says so. -/
theorem record_fails {c : Setting} {k : RecKind} {x : IOm Unit} {s s' : Proc V R} {o : Out Unit}
    (h : record c k x s = (o, s')) (ho : o ≠ .ok ()) :
    (o = .panic ∨ o = .crash) ∧ s'.hook = s.hook ∧ s'.warned = s.warned ∧
      ∃ l, s'.log = s.log ++ .recordFailed k :: l ∧ (l = [] ∨ l = [.panicked s.hook]) := by
  unfold record at h
  split at h
  · cases h; exact absurd rfl ho
  · cases h; exact ⟨.inr rfl, rfl, rfl, [], rfl, .inl rfl⟩
  · unfold raise at h
    split at h
    · next hh =>
      cases h
      refine ⟨.inr rfl, rfl, rfl, [.panicked s.hook], ?_, .inr rfl⟩
      simp only [Proc.note] at hh ⊢
      rw [hh, List.append_assoc]
      rfl
    · cases h
      refine ⟨.inl rfl, rfl, rfl, [.panicked s.hook], ?_, .inr rfl⟩
      simp [Proc.note]

theorem andThen_ok {α : Type} {x : Out Unit × Proc V R} {k : Proc V R → Out α × Proc V R} {a s'}
    (h : andThen x k = (.ok a, s')) : ∃ s1, x = (.ok (), s1) ∧ k s1 = (.ok a, s') := by
  obtain ⟨x, s⟩ := x
  cases x
  · exact ⟨_, rfl, h⟩
  all_goals cases h

theorem unwrap_writeData_ok {dir : Out Path} {data : Bytes} {pl : Plan} {w w' : World}
    (h : (do let d ← IOm.lift dir; IOm.unwrap (writeData d data) : IOm Unit) pl w = (.ok (), w')) :
    ∃ d, dir = .ok d ∧ Stored d data w w' := by
  simp only [Bind.bind, IOm.bind, IOm.lift] at h
  cases hd : dir with
  | ok d =>
    rw [hd] at h
    simp only [IOm.unwrap] at h
    split at h
    · cases h
    · obtain ⟨name, h1, -, h3, h4⟩ := C01_record_stores_data d data pl w w' h
      exact ⟨d, rfl, name, h1, h3, h4⟩
  | _ => rw [hd] at h; cases h

/-- The names of types, as recorded. -/
def Spec.typeList (l : List Str) : Bytes := utf8Encode (joinWith c%", " l)

/-- A call that has to be recorded either stores the instantiation and – unless only that is wanted – the serialised
arguments, and then runs the body; or recording fails and the body is not run. -/
theorem C07_due (c : Setting) (t : Target V) (v : V) (body : Proc V R → Out R × Proc V R) (s : Proc V R)
    (h : Due c.ctx.env c.test t.macro_.enableInProduction) :
    (∃ w di w1 dg w2 w3,
      implGenericArgsDirFromArgsType c.ctx t.typeName = .ok di ∧ Stored di (typeList (t.implTypes v)) w w1 ∧
      genericArgsDirFromArgsType c.ctx t.typeName = .ok dg ∧ Stored dg (typeList (t.types v)) w1 w2 ∧
      (t.macro_.onlyGenericArgs = true → w3 = w2) ∧
      (t.macro_.onlyGenericArgs = false → ∃ dc data, corpusDirFromArgsType c.ctx t.typeName = .ok dc ∧
        t.ser v = .ok data ∧ Stored dc data w2 w3) ∧
      w = s.world ∧
      callInstrumented c t v body s = body { s with
        world := w3
        log := s.log ++ [.recorded .implGenericArgs, .recorded .genericArgs] ++
          (if t.macro_.onlyGenericArgs then [] else [.recorded .args]) ++ [.body v] }) ∨
    (∃ l k l', (callInstrumented c t v body s).2.log = s.log ++ l ++ .recordFailed k :: l' ∧
      ((callInstrumented c t v body s).1 = .panic ∨ (callInstrumented c t v body s).1 = .crash) ∧
      (∀ a ∈ l, ∃ k, a = .recorded k) ∧ ∀ a ∈ l', a = .panicked s.hook) := by
  rw [callInstrumented_eq, if_pos h]
  unfold recording
  cases h1 : record c .implGenericArgs (writeImplGenericArgs c.ctx t.typeName (t.implTypes v)) s with | mk o1 s1 =>
  by_cases ho : o1 = .ok ()
  · subst ho
    obtain ⟨w1, hw1, rfl⟩ := record_ok h1
    obtain ⟨di, hdi, hs1⟩ := unwrap_writeData_ok hw1
    simp only [andThen]
    generalize hs1' : ({ s with world := w1 } : Proc V R).note [.recorded .implGenericArgs] = s1
    cases h2 : record c .genericArgs (writeGenericArgs c.ctx t.typeName (t.types v)) s1 with | mk o2 s2 =>
    by_cases ho : o2 = .ok ()
    · subst ho
      obtain ⟨w2, hw2, rfl⟩ := record_ok h2
      obtain ⟨dg, hdg, hs2⟩ := unwrap_writeData_ok hw2
      simp only
      subst hs1'
      cases hg : t.macro_.onlyGenericArgs with
      | true =>
        left
        refine ⟨_, di, w1, dg, w2, w2, hdi, hs1, hdg, hs2, fun _ => rfl, fun h => (nomatch h), rfl, ?_⟩
        simp [Proc.note]
      | false =>
        simp only [Bool.false_eq_true, if_false]
        generalize hs2' : (({ (({ s with world := w1 } : Proc V R).note [.recorded .implGenericArgs]) with world := w2 } :
          Proc V R).note [.recorded .genericArgs]) = s2
        cases h3 : record c .args (recordArgs c t v) s2 with | mk o3 s3 =>
        by_cases ho : o3 = .ok ()
        · subst ho
          obtain ⟨w3, hw3, rfl⟩ := record_ok h3
          left
          have hser : ∃ data, t.ser v = .ok data ∧ writeArgs c.ctx t.typeName data c.plan w2 = (.ok (), w3) := by
            subst hs2'
            simp only [recordArgs, Bind.bind, IOm.bind, IOm.lift] at hw3
            cases hv : t.ser v with
            | ok d => rw [hv] at hw3; exact ⟨d, rfl, hw3⟩
            | _ => rw [hv] at hw3; cases hw3
          obtain ⟨data, hv, hw⟩ := hser
          obtain ⟨dc, hdc, hs3⟩ := unwrap_writeData_ok hw
          refine ⟨_, di, w1, dg, w2, w3, hdi, hs1, hdg, hs2, fun h => h.elim, fun _ => ⟨dc, data, hdc, hv, hs3⟩, rfl, ?_⟩
          subst hs2'
          simp [Proc.note]
        · right
          obtain ⟨ho3, -, -, l, hl, hl'⟩ := record_fails h3 ho
          refine ⟨[.recorded .implGenericArgs, .recorded .genericArgs], .args, l, ?_, ?_, ?_, ?_⟩
          · rcases ho3 with rfl | rfl <;> simp [hl, ← hs2', Proc.note]
          · rcases ho3 with rfl | rfl <;> simp
          · simp
          · subst hs2'
            rcases hl' with rfl | rfl <;> simp [Proc.note]
    · right
      obtain ⟨ho2, -, -, l, hl, hl'⟩ := record_fails h2 ho
      refine ⟨[.recorded .implGenericArgs], .genericArgs, l, ?_, ?_, ?_, ?_⟩
      · rcases ho2 with rfl | rfl <;> simp [hl, ← hs1', Proc.note]
      · rcases ho2 with rfl | rfl <;> simp
      · simp
      · subst hs1'
        rcases hl' with rfl | rfl <;> simp [Proc.note]
  · right
    obtain ⟨ho1, -, -, l, hl, hl'⟩ := record_fails h1 ho
    refine ⟨[], .implGenericArgs, l, ?_, ?_, ?_, ?_⟩
    · rcases ho1 with rfl | rfl <;> simp [hl, andThen]
    · rcases ho1 with rfl | rfl <;> simp [andThen]
    · simp
    · rcases hl' with rfl | rfl <;> simp

/-! ## C65 and C08: user code with instrumented calls -/

/-- Not an event of a harness. -/
def Inner (a : Ev V R) : Prop := (∀ v, a ≠ .call v) ∧ a ≠ .hint

/-- What is known of a computation: the log is extended by `l`, all else but the files is the same. -/
structure Extends (s s' : Proc V R) (l : List (Ev V R)) : Prop where
  log : s'.log = s.log ++ l
  hook : s'.hook = s.hook
  warned : s'.warned = s.warned
  inner : ∀ a ∈ l, Inner a
  /-- Panics begin with the hook that was in place. -/
  hooks : ∀ h, .panicked h ∈ l → h = s.hook

theorem Extends.refl (s : Proc V R) : Extends s s [] := ⟨by simp, rfl, rfl, by simp, by simp⟩

theorem Extends.trans {s s' s'' : Proc V R} {l l'} (h : Extends s s' l) (h' : Extends s' s'' l') :
    Extends s s'' (l ++ l') :=
  ⟨by rw [h'.log, h.log, List.append_assoc], h'.hook.trans h.hook, h'.warned.trans h.warned, by
    intro a ha
    rcases List.mem_append.mp ha with ha | ha
    · exact h.inner a ha
    · exact h'.inner a ha, by
    intro k hk
    rcases List.mem_append.mp hk with hk | hk
    · exact h.hooks k hk
    · exact (h'.hooks k hk).trans h.hook⟩

theorem record_extends {c : Setting} {k : RecKind} {x : IOm Unit} {s s' : Proc V R} {o : Out Unit}
    (h : record c k x s = (o, s')) :
    ∃ l, Extends s s' l ∧ (o = .ok () ∨ ((o = .panic ∨ o = .crash) ∧ .recordFailed k ∈ l)) := by
  by_cases ho : o = .ok ()
  · subst ho
    obtain ⟨w, -, rfl⟩ := record_ok h
    exact ⟨[.recorded k], ⟨rfl, rfl, rfl, by simp [Inner], by simp⟩, .inl rfl⟩
  · obtain ⟨h1, h2, h3, l, h4, h5⟩ := record_fails h ho
    refine ⟨_, ⟨h4, h2, h3, ?_, ?_⟩, .inr ⟨h1, List.mem_cons_self⟩⟩
    · rcases h5 with rfl | rfl <;> simp [Inner]
    · rcases h5 with rfl | rfl <;> simp

theorem recording_extends {c : Setting} {t : Target V} {v : V} {s s' : Proc V R} {o : Out Unit}
    (h : recording c t v s = (o, s')) :
    ∃ l, Extends s s' l ∧ (o = .ok () ∨ ((o = .panic ∨ o = .crash) ∧ ∃ k, .recordFailed k ∈ l)) := by
  unfold recording at h
  cases h1 : record c .implGenericArgs (writeImplGenericArgs c.ctx t.typeName (t.implTypes v)) s with | mk o1 s1 =>
  rw [h1] at h
  obtain ⟨l1, e1, rfl | ⟨ho1, hk1⟩⟩ := record_extends h1
  · simp only [andThen] at h
    cases h2 : record c .genericArgs (writeGenericArgs c.ctx t.typeName (t.types v)) s1 with | mk o2 s2 =>
    rw [h2] at h
    obtain ⟨l2, e2, rfl | ⟨ho2, hk2⟩⟩ := record_extends h2
    · simp only at h
      split at h
      · cases h; exact ⟨_, e1.trans e2, .inl rfl⟩
      · obtain ⟨l3, e3, rfl | ⟨ho3, hk3⟩⟩ := record_extends h
        · exact ⟨_, (e1.trans e2).trans e3, .inl rfl⟩
        · exact ⟨_, (e1.trans e2).trans e3, .inr ⟨ho3, _, List.mem_append_right _ hk3⟩⟩
    · rcases ho2 with rfl | rfl <;> simp only [Prod.mk.injEq] at h <;> obtain ⟨rfl, rfl⟩ := h
      · exact ⟨_, e1.trans e2, .inr ⟨.inl rfl, _, List.mem_append_right _ hk2⟩⟩
      · exact ⟨_, e1.trans e2, .inr ⟨.inr rfl, _, List.mem_append_right _ hk2⟩⟩
  · rcases ho1 with rfl | rfl <;> simp only [andThen, Prod.mk.injEq] at h <;> obtain ⟨rfl, rfl⟩ := h
    · exact ⟨_, e1, .inr ⟨.inl rfl, _, hk1⟩⟩
    · exact ⟨_, e1, .inr ⟨.inr rfl, _, hk1⟩⟩

/-- The outcome of user code, given the panic hook. -/
def outcome (h : Hook) (p : Prog V R) : Out R := if h = .abort ∧ raises p = true then .crash else plain p

/-- What is known of a run of user code. -/
structure RunSpec (c : Setting) (p : Prog V R) (s : Proc V R) (r : Out R × Proc V R) (l : List (Ev V R)) : Prop where
  ext : Extends s r.2 l
  out : (∀ k, .recordFailed k ∉ l) → r.1 = outcome s.hook p
  quiet : (∀ b, ¬ Due c.ctx.env c.test b) → (∀ a ∈ l, ¬ IsRecord a) ∧ r.2.world.tick = s.world.tick
  raised : (∀ k, .recordFailed k ∉ l) → raises p = true → .panicked s.hook ∈ l

theorem raise_eq {α : Type} (s : Proc V R) :
    raise (α := α) s = (if s.hook = .abort then .crash else .panic, s.note [.panicked s.hook]) := by
  unfold raise
  split <;> simp_all

theorem plain_ok_of (p : Prog V R) (h : Hook) {r : R} (hr : outcome h p = .ok r) :
    plain p = .ok r ∧ (h = .abort → raises p = false) := by
  unfold outcome at hr
  split at hr
  · cases hr
  · next hn => exact ⟨hr, fun hh => by cases hc : raises p <;> simp_all⟩

open Classical in
theorem run_spec (c : Setting) (p : Prog V R) (s : Proc V R) : ∃ l, RunSpec c p s (p.run c s) l := by
  induction p generalizing s with
  | ret r => exact ⟨[], .refl s, fun _ => by simp [Prog.run, outcome, raises, plain], fun _ => ⟨by simp, rfl⟩, by simp [raises]⟩
  | resume => exact ⟨[], .refl s, fun _ => by simp [Prog.run, outcome, raises, plain], fun _ => ⟨by simp, rfl⟩, by simp [raises]⟩
  | die => exact ⟨[], .refl s, fun _ => by simp [Prog.run, outcome, raises, plain], fun _ => ⟨by simp, rfl⟩, by simp [raises]⟩
  | panic =>
    rw [Prog.run, raise_eq]
    exact ⟨[.panicked s.hook], ⟨rfl, rfl, rfl, by simp [Inner], by simp⟩, fun _ => by simp [outcome, raises, plain],
      fun _ => ⟨by simp [IsRecord], rfl⟩, by simp⟩
  | touch f k ih =>
    obtain ⟨l, h⟩ := ih { s with world := { s.world with fs := f s.world.fs } }
    exact ⟨l, ⟨h.ext.log, h.ext.hook, h.ext.warned, h.ext.inner, h.ext.hooks⟩, h.out, h.quiet, h.raised⟩
  | call t v body k ihb ihk =>
    rw [Prog.run, callInstrumented_eq]
    -- the recording
    have hrec : ∃ o1 s1 l1, (if Due c.ctx.env c.test t.macro_.enableInProduction then recording c t v s else (.ok (), s))
          = (o1, s1) ∧ Extends s s1 l1 ∧ (o1 = .ok () ∨ ((o1 = .panic ∨ o1 = .crash) ∧ ∃ k, .recordFailed k ∈ l1)) ∧
        ((∀ b, ¬ Due c.ctx.env c.test b) → o1 = .ok () ∧ s1 = s ∧ l1 = []) := by
      split
      · next hd =>
        cases hr : recording c t v s with | mk o1 s1 =>
        obtain ⟨l1, e1, h1⟩ := recording_extends hr
        exact ⟨o1, s1, l1, rfl, e1, h1, fun hn => absurd hd (hn _)⟩
      · exact ⟨_, _, [], rfl, .refl s, .inl rfl, fun _ => ⟨rfl, rfl, rfl⟩⟩
    obtain ⟨o1, s1, l1, hr, e1, h1, hq1⟩ := hrec
    rw [hr]
    have hke : ∀ (x : Option R) (s' : Proc V R) (l' : List (Ev V R)), Extends s s' l' →
        ((∀ k, .recordFailed k ∉ l') → outcome s.hook (.call t v body k) = outcome s.hook (k x)) →
        ((∀ b, ¬ Due c.ctx.env c.test b) → (∀ a ∈ l', ¬ IsRecord a) ∧ s'.world.tick = s.world.tick) →
        ((∀ k, .recordFailed k ∉ l') → raises (.call t v body k) = true →
          .panicked s.hook ∈ l' ∨ raises (k x) = true) →
        ∃ l, RunSpec c (.call t v body k) s ((k x).run c s') l := by
      intro x s' l' e ho hq hra
      obtain ⟨l, h⟩ := ihk x s'
      refine ⟨l' ++ l, e.trans h.ext, fun hn => ?_, fun hn => ?_, fun hn hr => ?_⟩
      · rw [h.out fun k hk => hn k (List.mem_append_right _ hk), e.hook,
          ho fun k hk => hn k (List.mem_append_left _ hk)]
      · refine ⟨fun a ha => ?_, (h.quiet hn).2.trans (hq hn).2⟩
        rcases List.mem_append.mp ha with ha | ha
        · exact (hq hn).1 a ha
        · exact (h.quiet hn).1 a ha
      · rcases hra (fun k hk => hn k (List.mem_append_left _ hk)) hr with h' | h'
        · exact List.mem_append_left _ h'
        · rw [← e.hook]
          exact List.mem_append_right _ (h.raised (fun k hk => hn k (List.mem_append_right _ hk)) h')
    rcases h1 with rfl | ⟨h1, hk1⟩
    · simp only [andThen]
      obtain ⟨l2, h2⟩ := ihb (s1.note [.body v])
      have e2 : Extends s ((body.run c (s1.note [.body v])).2) (l1 ++ [.body v] ++ l2) :=
        (e1.trans (s' := s1) (s'' := s1.note [.body v]) ⟨rfl, rfl, rfl, by simp [Inner], by simp⟩).trans h2.ext
      have hout : (∀ k, .recordFailed k ∉ l1 ++ [.body v] ++ l2) →
          (body.run c (s1.note [.body v])).1 = outcome s.hook body := fun hn => by
        rw [h2.out fun k hk => hn k (List.mem_append_right _ hk)]
        show outcome s1.hook body = _
        rw [e1.hook]
      have hq2 : (∀ b, ¬ Due c.ctx.env c.test b) → (∀ a ∈ l1 ++ [.body v] ++ l2, ¬ IsRecord a) ∧
          (body.run c (s1.note [.body v])).2.world.tick = s.world.tick := fun hn => by
        obtain ⟨-, rfl, rfl⟩ := hq1 hn
        refine ⟨fun a ha => ?_, (h2.quiet hn).2⟩
        rcases List.mem_append.mp ha with ha | ha
        · have : a = .body v := by simpa using ha
          rw [this]; exact id
        · exact (h2.quiet hn).1 a ha
      have hra2 : (∀ k, .recordFailed k ∉ l1 ++ [.body v] ++ l2) → raises body = true →
          .panicked s.hook ∈ l1 ++ [.body v] ++ l2 := fun hn hr => by
        rw [← e1.hook]
        exact List.mem_append_right _ (h2.raised (fun k hk => hn k (List.mem_append_right _ hk)) hr)
      generalize body.run c (s1.note [.body v]) = br at *
      obtain ⟨bo, bs⟩ := br
      simp only at hout e2 hq2
      cases bo with
      | ok r =>
        refine hke (some r) bs _ e2 (fun hn => ?_) hq2 (fun hn hr => ?_)
        rotate_left
        · obtain ⟨hp, -⟩ := plain_ok_of body s.hook (hout hn).symm
          rw [raises, hp, Bool.or_eq_true] at hr
          exact hr.imp (hra2 hn) id
        obtain ⟨hp, hr⟩ := plain_ok_of body s.hook (hout hn).symm
        unfold outcome
        rw [plain, raises, hp]
        by_cases hh : s.hook = .abort
        · simp [hr hh]
        · simp [hh]
      | panic =>
        have hp : (∀ k, .recordFailed k ∉ l1 ++ [.body v] ++ l2) → plain body = .panic := fun hn => by
          have := (hout hn).symm
          unfold outcome at this
          split at this
          · cases this
          · exact this
        refine hke none bs _ e2 (fun hn => ?_) hq2 (fun hn hr => ?_)
        rotate_left
        · rw [raises, hp hn, Bool.or_eq_true] at hr
          exact hr.imp (hra2 hn) id
        have := (hout hn).symm
        unfold outcome at this ⊢
        split at this
        · cases this
        · next hc =>
          rw [plain, raises, this]
          by_cases hh : s.hook = .abort
          · simp_all
          · simp [hh]
      | crash =>
        refine ⟨_, e2, fun hn => ?_, hq2, fun hn hr => ?_⟩
        rotate_left
        · have := (hout hn).symm
          unfold outcome at this
          split at this
          · next hc => exact hra2 hn hc.2
          · rw [raises, this, Bool.or_false] at hr
            exact hra2 hn hr
        have := (hout hn).symm
        show Out.crash = _
        unfold outcome at this ⊢
        split at this
        · next hc => rw [raises, if_pos ⟨hc.1, by simp [hc.2]⟩]
        · split
          · rfl
          · rw [plain, this]
      | err e =>
        refine ⟨_, e2, fun hn => ?_, hq2, fun hn hr => ?_⟩
        rotate_left
        · have := (hout hn).symm
          unfold outcome at this
          split at this
          · cases this
          · rw [raises, this, Bool.or_false] at hr
            exact hra2 hn hr
        have := (hout hn).symm
        show Out.err e = _
        unfold outcome at this ⊢
        split at this
        · cases this
        · next hc =>
          rw [plain, raises, this]
          simp only [Bool.or_false]
          rw [if_neg hc]
      | exit n =>
        refine ⟨_, e2, fun hn => ?_, hq2, fun hn hr => ?_⟩
        rotate_left
        · have := (hout hn).symm
          unfold outcome at this
          split at this
          · cases this
          · rw [raises, this, Bool.or_false] at hr
            exact hra2 hn hr
        have := (hout hn).symm
        show Out.exit n = _
        unfold outcome at this ⊢
        split at this
        · cases this
        · next hc =>
          rw [plain, raises, this]
          simp only [Bool.or_false]
          rw [if_neg hc]
    · obtain ⟨kk, hkk⟩ := hk1
      rcases h1 with rfl | rfl
      · simp only [andThen]
        exact hke none s1 l1 e1 (fun hn => absurd hkk (hn kk)) (fun hn => absurd (hq1 hn).1 (by simp))
          fun hn => absurd hkk (hn kk)
      · simp only [andThen]
        exact ⟨l1, e1, fun hn => absurd hkk (hn kk), fun hn => absurd (hq1 hn).1 (by simp), fun hn => absurd hkk (hn kk)⟩

/-- Instrumentation is transparent: whatever instrumented functions user code calls, and however they call each other,
unless a recording fails, the outcome is that of the program without instrumentation. (With the hook that a harness
installs for fuzzing, see C12.) -/
theorem C65_transparent (c : Setting) (p : Prog V R) (s : Proc V R) (h : s.hook ≠ .abort) :
    ∃ l, (p.run c s).2.log = s.log ++ l ∧ ((∀ k, .recordFailed k ∉ l) → (p.run c s).1 = plain p) := by
  obtain ⟨l, hl⟩ := run_spec c p s
  refine ⟨l, hl.ext.log, fun hn => ?_⟩
  rw [hl.out hn, outcome, if_neg fun hh => h hh.1]

/-- The same for a single call; and it is after the recordings that the body starts, with the caller's arguments. -/
theorem C65_call (c : Setting) (t : Target V) (v : V) (body : Prog V R) (s : Proc V R) (h : s.hook ≠ .abort) :
    (∃ l l', (callInstrumented c t v (body.run c) s).2.log = s.log ++ l ++ .body v :: l' ∧
        (∀ a ∈ l, ∃ k, a = .recorded k) ∧
        ((∀ k, .recordFailed k ∉ l') → (callInstrumented c t v (body.run c) s).1 = plain body)) ∨
    (∃ l k l', (callInstrumented c t v (body.run c) s).2.log = s.log ++ l ++ .recordFailed k :: l' ∧
      ((callInstrumented c t v (body.run c) s).1 = .panic ∨ (callInstrumented c t v (body.run c) s).1 = .crash)) := by
  by_cases hd : Due c.ctx.env c.test t.macro_.enableInProduction
  · rcases C07_due c t v (body.run c) s hd with ⟨_, _, _, _, _, w3, -, -, -, -, -, -, -, he⟩ | ⟨l, k, l', h1, h2, -⟩
    · left
      rw [he]
      obtain ⟨l', h', hp⟩ := C65_transparent c body { s with
        world := w3
        log := s.log ++ [.recorded .implGenericArgs, .recorded .genericArgs] ++
          (if t.macro_.onlyGenericArgs then [] else [.recorded .args]) ++ [.body v] } h
      refine ⟨[.recorded .implGenericArgs, .recorded .genericArgs] ++
          (if t.macro_.onlyGenericArgs then [] else [.recorded .args]), l', ?_, ?_, hp⟩
      · rw [h']; simp
      · intro a ha
        split at ha <;> simp at ha <;> rcases ha with rfl | ha <;> simp_all
        rcases ha with rfl | rfl <;> simp
    · exact .inr ⟨l, k, l', h1, h2⟩
  · left
    rw [C07_not_due c t v _ s hd]
    obtain ⟨l', h', hp⟩ := C65_transparent c body { s with log := s.log ++ [.body v] } h
    exact ⟨[], l', by rw [h']; simp, by simp, hp⟩

/-- No instrumented call, at any depth, records anything or touches a file, if `TEST_FUZZ` is on and `TEST_FUZZ_WRITE` is
not. -/
theorem C08_records_nothing (c : Setting) (p : Prog V R) (s : Proc V R) (h1 : On c.ctx.env c%"TEST_FUZZ")
    (h2 : ¬ On c.ctx.env c%"TEST_FUZZ_WRITE") :
    ∃ l, (p.run c s).2.log = s.log ++ l ∧ (∀ a ∈ l, ¬ IsRecord a) ∧ (p.run c s).2.world.tick = s.world.tick := by
  obtain ⟨l, hl⟩ := run_spec c p s
  have hn : ∀ b, ¬ Due c.ctx.env c.test b := by
    rintro b (⟨-, h⟩ | ⟨-, -, h⟩)
    · exact h h1
    · exact h2 h
  exact ⟨l, hl.ext.log, hl.quiet hn⟩

end TF
