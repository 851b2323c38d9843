import Verif.Lemmas.RunPlain
import Verif.Props.FuzzExit

/-! # Whole commands: C26, C27, C41 -/

namespace TF

open Spec

/-! ## C26 -/

theorem checkObjects_ok (o : Opts) : checkObjects o = .ok () ↔ ObjectsValid o := by
  unfold checkObjects checkCoverage checkReplay ObjectsValid ensure
  rcases hc : o.coverage with _ | ob <;> rcases hr : o.replay with _ | ob'
  · simp
  · cases ob' <;> simp [TypeNames]
  · cases ob <;> simp [TypeNames, Instrumented]
  · cases ob <;> cases ob' <;> simp [TypeNames, Instrumented]

/-- Coverage and fuzzing instrumentation are never requested together, so the assertion of `target_directory` holds. -/
theorem C26_never_both (o : Opts) (c : Ctx) :
    ¬ (includeCoverage o = true ∧ includeFuzzing o = true) ∧
      (optsTargetDirectory o c = .panic → c.metadata (c.env.var c%"TEST_FUZZ_MANIFEST_PATH") = none) := by
  have h1 : ¬ (includeCoverage o = true ∧ includeFuzzing o = true) := by
    unfold includeCoverage includeFuzzing
    rintro ⟨h1, h2⟩
    simp [h1] at h2
  refine ⟨h1, fun h => ?_⟩
  unfold optsTargetDirectory targetDirectory assert at h
  split at h
  · rw [Out.ok_bind] at h
    split at h
    · next hm => exact hm
    · cases h
  · next hb =>
    exfalso; apply hb
    cases hc : includeCoverage o <;> cases hf : includeFuzzing o <;> simp_all

/-- Which commands are instrumented for fuzzing: all but `--list`, coverage, and display or replay of an object that is
not the `-instrumented` variant. -/
theorem C26_fuzzing_iff (o : Opts) (hv : ObjectsValid o) :
    includeFuzzing o = true ↔ o.list = false ∧ o.coverage = none ∧ (∀ ob, o.display = some ob → Instrumented ob) ∧
      ∀ ob, o.replay = some ob → Instrumented ob := by
  obtain ⟨-, hr⟩ := hv
  unfold includeFuzzing
  rcases hc : o.coverage with _ | ob <;> rcases hd : o.display with _ | ob1 <;> rcases hrr : o.replay with _ | ob2
  all_goals (try have hr' := hr _ hrr)
  all_goals cases hl : o.list
  all_goals (try cases ob1)
  all_goals (try cases ob2)
  all_goals simp_all [Instrumented, TypeNames]

/-- Coverage instrumentation is exactly for `--coverage`. -/
theorem C26_coverage_iff (o : Opts) : includeCoverage o = true ↔ ∃ ob, o.coverage = some ob := by
  unfold includeCoverage; rw [Option.isSome_iff_exists]

/-- Objects that make no sense are rejected, with a message that names them, before anything is built or run and without
any effect. -/
theorem C26_invalid_rejected (o : Opts) (y : Sys) (s : RSt) (hv : ¬ ObjectsValid o) :
    ∃ flag ob, (flag = c%"coverage" ∧ o.coverage = some ob ∨ flag = c%"replay" ∧ o.replay = some ob) ∧
      runWithoutExitCode o y s = (.err (c%"`--" ++ flag ++ c%" " ++ objectName ob ++ c%"` is invalid."), s) := by
  have key : ∃ flag ob, (flag = c%"coverage" ∧ o.coverage = some ob ∨ flag = c%"replay" ∧ o.replay = some ob) ∧
      checkObjects o = .err (c%"`--" ++ flag ++ c%" " ++ objectName ob ++ c%"` is invalid.") := by
    unfold checkObjects checkCoverage checkReplay ensure
    unfold ObjectsValid at hv
    rcases hc : o.coverage with _ | ob
    · rcases hr : o.replay with _ | ob'
      · simp [hc, hr] at hv
      · refine ⟨c%"replay", ob', Or.inr ⟨rfl, rfl⟩, ?_⟩
        cases ob' <;> simp_all [TypeNames]
    · by_cases h1 : ¬ Instrumented ob ∧ ¬ TypeNames ob
      · rcases hr : o.replay with _ | ob'
        · exfalso; apply hv; simp [hc, hr]; exact h1
        · refine ⟨c%"replay", ob', Or.inr ⟨rfl, rfl⟩, ?_⟩
          cases ob <;> cases ob' <;> simp_all [TypeNames, Instrumented]
      · refine ⟨c%"coverage", ob, Or.inl ⟨rfl, rfl⟩, ?_⟩
        cases ob <;> simp_all [TypeNames, Instrumented]
  obtain ⟨flag, ob, h1, h2⟩ := key
  refine ⟨flag, ob, h1, ?_⟩
  have hp : prepare o y s = (.err (c%"`--" ++ flag ++ c%" " ++ objectName ob ++ c%"` is invalid."), s) := by
    unfold prepare
    rw [h2, Rm.lift_err_bind]
  unfold runWithoutExitCode
  rw [Rm.bind_err hp]

theorem Rm.lift_bind_state {α β} (Q : RSt → Prop) {x : Out α} {f : α → Rm β} {s : RSt} (h0 : Q s)
    (h : ∀ v, x = .ok v → Q (f v s).2) : Q ((Rm.lift x >>= f) s).2 := by
  rw [Rm.bind_def]
  cases x with
  | ok v => exact h v rfl
  | _ => exact h0

theorem mustHave_noExit {α} (x : Option α) : (mustHave x).NoExit := by
  cases x
  · exact .panic
  · exact .ok _

theorem gather_plain (o : Opts) (y : Sys) {P : Act → Prop} (hP : ∀ a, Looks a → P a) : Plain P (gather o y) := by
  unfold gather
  exact .bind (.lift (mustHave_noExit _)) fun _ =>
    .bind (.lift (targetDirectory_noExit _ _ _)) fun _ => .bind (.lift (mustHave_noExit _)) fun _ =>
    .bind (.lift (llvmEnvs_noExit _ _ _ _)) fun _ => .bind (build_plain _ _ _ fun _ _ => hP _ trivial) fun _ =>
    .bind (listTargets_plain _ _ fun _ => hP _ trivial) fun _ =>
    .bind (.lift (checkVersions_noExit _ _ _)) fun _ => .pure _

theorem prepare_plain (o : Opts) (y : Sys) {P : Act → Prop} (hP : ∀ a, Looks a → P a) : Plain P (prepare o y) := by
  unfold prepare
  exact .bind (.lift (checkObjects_noExit _)) fun _ => .bind (.act (hP _ trivial)) fun _ => gather_plain o y hP

/-- The fuzzing loop is not entered. -/
def NotLoop : Act → Prop
  | .fuzzLoop .. => False
  | _ => True

/-- Either nothing ends the process with a status and the fuzzing loop is not entered, or the loop is entered at the very
end and its outcome is the outcome. -/
def LoopOr (o : Opts) (y : Sys) (x : Rm Unit) : Prop :=
  ∀ s, ((∀ c, (x s).1 ≠ .exit c) ∧ ∃ l, (x s).2.acts = s.acts ++ l ∧ ∀ a ∈ l, NotLoop a) ∨
    ∃ l ets k, (x s).2.acts = s.acts ++ l ++ [.fuzzLoop ets k.nCpus] ∧ (∀ a ∈ l, NotLoop a) ∧
      fuzzSetup o y.numCpus (ets.map Prod.snd) y.vis = .ok k ∧ (x s).1 = y.loop k

theorem LoopOr.plain {o y} {x : Rm Unit} (h : Plain NotLoop x) : LoopOr o y x := fun s => Or.inl (h s)

theorem LoopOr.bind {α} {o y} {x : Rm α} {f : α → Rm Unit} (hx : Plain NotLoop x) (hf : ∀ a, LoopOr o y (f a)) :
    LoopOr o y (x >>= f) := by
  intro s
  obtain ⟨h1, l1, h2, h3⟩ := hx s
  rw [Rm.bind_def]
  split
  all_goals (rename_i hx'; rw [hx'] at h1 h2)
  · rcases hf _ _ with ⟨h4, l2, h5, h6⟩ | ⟨l2, ets, k, h5, h6, h7, h8⟩
    · refine Or.inl ⟨h4, l1 ++ l2, by rw [h5, h2, List.append_assoc], fun a ha => ?_⟩
      rcases List.mem_append.mp ha with ha | ha
      · exact h3 a ha
      · exact h6 a ha
    · refine Or.inr ⟨l1 ++ l2, ets, k, by rw [h5, h2]; simp, fun a ha => ?_, h7, h8⟩
      rcases List.mem_append.mp ha with ha | ha
      · exact h3 a ha
      · exact h6 a ha
  · exact Or.inl ⟨fun _ h => (nomatch h), l1, h2, h3⟩
  · exact Or.inl ⟨fun _ h => (nomatch h), l1, h2, h3⟩
  · exact absurd rfl (h1 _)
  · exact Or.inl ⟨fun _ h => (nomatch h), l1, h2, h3⟩

theorem Plain.mono {α} {P Q : Act → Prop} {x : Rm α} (h : Plain P x) (hPQ : ∀ a, P a → Q a) : Plain Q x := by
  intro s
  obtain ⟨h1, l, h2, h3⟩ := h s
  exact ⟨h1, l, h2, fun a ha => hPQ a (h3 a ha)⟩

theorem fuzzMany_loopOr (o : Opts) (y : Sys) (ets) : LoopOr o y (fuzzMany o y ets) := by
  intro s
  unfold fuzzMany
  cases hk : fuzzSetup o y.numCpus (ets.map Prod.snd) y.vis with
  | ok k => exact Or.inr ⟨[], ets, k, by (rw [Rm.lift_ok_bind, Rm.bind_def]; simp [Rm.loop]), by simp, hk, rfl⟩
  | exit c => exact absurd hk (fuzzSetup_noExit _ _ _ _ _)
  | _ => exact Or.inl ⟨fun _ h => (nomatch h), [], by simp [Rm.bind_def], by simp⟩

theorem fuzz_loopOr (o : Opts) (y : Sys) (llvm ets) : LoopOr o y (fuzz o y llvm ets) := by
  unfold fuzz
  refine .bind (.lift (.assert _)) fun _ => .bind (autoGenerateCorpora_plain _ _ _ (fun _ => trivial) fun _ => trivial)
    fun _ => ?_
  split
  · refine .plain (.bind (.io _ (fuzzCommandIO_noExit _ _ _ _ _ _ _)) fun _ => .bind (.command _ trivial) fun r => ?_)
    split
    · exact .lift (.err _)
    · exact .lift (.ensure _ _)
  · exact fuzzMany_loopOr _ _ _

theorem dispatch_loopOr (o : Opts) (y : Sys) (llvm ets) : LoopOr o y (dispatch o y llvm ets) := by
  unfold dispatch
  split
  · exact .plain (.act trivial)
  · split
    · exact .plain (.pure _)
    · split
      · exact .plain (storageAll_plain _ _ _ trivial trivial)
      · split
        · refine .plain ((replayAll_plain _ _ _ _).mono fun a ha => ?_)
          cases a <;> trivial
        · exact .bind (.lift (flatten_noExit _ _)) fun _ => fuzz_loopOr _ _ _ _

theorem run_loopOr (o : Opts) (y : Sys) : LoopOr o y (runWithoutExitCode o y) := by
  unfold runWithoutExitCode
  refine .bind (prepare_plain o y fun a ha => ?_) fun _ => dispatch_loopOr _ _ _ _
  cases a <;> trivial

/-- Valid objects pass the check: the command goes on. -/
theorem C26_valid_accepted (o : Opts) (hv : ObjectsValid o) (y : Sys) (s : RSt) :
    ∃ l, (runWithoutExitCode o y s).2.acts = s.acts ++ Act.aflVersion :: l := by
  have hext : ∀ x : List (Str × Str) × List (Exe × List Str), ∀ s : RSt,
      ∃ l, (dispatch o y x.1 x.2 s).2.acts = s.acts ++ l := by
    intro x s
    rcases dispatch_loopOr o y x.1 x.2 s with ⟨-, l, h, -⟩ | ⟨l, ets, k, h, -⟩
    · exact ⟨l, h⟩
    · exact ⟨_, by rw [h, List.append_assoc]⟩
  have hp : ∃ l, (prepare o y s).2.acts = s.acts ++ Act.aflVersion :: l := by
    unfold prepare
    rw [(checkObjects_ok o).mpr hv, Rm.lift_ok_bind, Rm.bind_ok (Rm.act_run _ _)]
    have := (gather_plain o y (P := Looks) fun _ h => h) { s with acts := s.acts ++ [.aflVersion] }
    obtain ⟨-, l, h, -⟩ := this
    exact ⟨l, by simpa using h⟩
  obtain ⟨l, hl⟩ := hp
  unfold runWithoutExitCode
  rw [Rm.bind_def]
  split
  · next a s' hx =>
    rw [hx] at hl
    obtain ⟨l', h'⟩ := hext a s'
    exact ⟨l ++ l', by rw [h', hl]; simp⟩
  all_goals (next hx => rw [hx] at hl; exact ⟨l, hl⟩)

/-! ## C27 -/

theorem Rm.bind_state {α β} (Q : RSt → Prop) {x : Rm α} {f : α → Rm β} {s : RSt} (h0 : Q (x s).2)
    (h : ∀ v s', x s = (.ok v, s') → Q (f v s').2) : Q ((x >>= f) s).2 := by
  rw [Rm.bind_def]
  split
  · next hx => exact h _ _ hx
  all_goals (next hx => rw [hx] at h0; exact h0)

/-- Looked at from `s`, nothing but looking has happened; the file system is as it was, or as the one build left it. -/
def OnlyLooked (y : Sys) (s s' : RSt) : Prop :=
  ∃ l, s'.acts = s.acts ++ l ∧ (∀ a ∈ l, Looks a) ∧
    (s'.world.fs = s.world.fs ∧ (∀ args q, Act.build args q ∉ l) ∨
      s'.world.fs = (y.build s.world.fs).2 ∧ ∃ args q, Act.build args q ∈ l)

theorem OnlyLooked.more {y s s'} (h : OnlyLooked y s s') {s'' : RSt} {l : List Act} (hl : ∀ a ∈ l, Looks a)
    (hb : ∀ args q, Act.build args q ∉ l) (hw : s''.world = s'.world) (ha : s''.acts = s'.acts ++ l) :
    OnlyLooked y s s'' := by
  obtain ⟨l0, h1, h2, h3⟩ := h
  refine ⟨l0 ++ l, by rw [ha, h1, List.append_assoc], fun a ham => ?_, ?_⟩
  · rcases List.mem_append.mp ham with ham | ham
    · exact h2 a ham
    · exact hl a ham
  · rw [hw]
    rcases h3 with ⟨h4, h5⟩ | ⟨h4, args, q, h5⟩
    · exact Or.inl ⟨h4, fun args q hm => (List.mem_append.mp hm).elim (h5 args q) (hb args q)⟩
    · exact Or.inr ⟨h4, args, q, List.mem_append_left _ h5⟩

theorem build_state (o : Opts) (y : Sys) (q : Bool) (s : RSt) :
    (build o y q s).2 = s ∨ ∃ args q', (build o y q s).2 =
      ⟨{ s.world with fs := (y.build s.world.fs).2 }, s.acts ++ [.build args q']⟩ := by
  unfold build
  rw [Rm.bind_def]
  split
  · next dir s' hx =>
    simp only [Rm.lift_run, Prod.mk.injEq] at hx
    obtain ⟨-, rfl⟩ := hx
    exact Or.inr ⟨_, _, rfl⟩
  all_goals (next hx => simp only [Rm.lift_run, Prod.mk.injEq] at hx; obtain ⟨-, rfl⟩ := hx; exact Or.inl rfl)

theorem prepare_looks (o : Opts) (y : Sys) (s : RSt) : OnlyLooked y s (prepare o y s).2 := by
  have h0 : OnlyLooked y s s := ⟨[], by simp, by simp, Or.inl ⟨rfl, by simp⟩⟩
  unfold prepare gather
  refine Rm.lift_bind_state _ h0 fun _ _ => ?_
  rw [Rm.bind_ok (Rm.act_run _ _)]
  have h1 : OnlyLooked y s { s with acts := s.acts ++ [.aflVersion] } :=
    h0.more (l := [.aflVersion]) (by simp [Looks]) (by simp) rfl rfl
  have hb : s.world = ({ s with acts := s.acts ++ [.aflVersion] } : RSt).world ∧
      ∀ args q, Act.build args q ∉ [Act.aflVersion] := ⟨rfl, by simp⟩
  refine Rm.lift_bind_state _ h1 fun _ _ => Rm.lift_bind_state _ h1 fun _ _ => Rm.lift_bind_state _ h1 fun _ _ =>
    Rm.lift_bind_state _ h1 fun _ _ => ?_
  have h2 : OnlyLooked y s (build o y (o.coverage.isSome || o.display.isSome || o.replay.isSome)
      { s with acts := s.acts ++ [.aflVersion] }).2 := by
    rcases build_state o y (o.coverage.isSome || o.display.isSome || o.replay.isSome)
        { s with acts := s.acts ++ [.aflVersion] } with h | ⟨args, q, h⟩
    · rw [h]; exact h1
    · rw [h]
      refine ⟨[.aflVersion, .build args q], by simp, by simp [Looks], Or.inr ⟨rfl, args, q, by simp⟩⟩
  refine Rm.bind_state _ h2 fun exes s2 hx => ?_
  rw [hx] at h2
  have h3 : OnlyLooked y s (listTargets y exes s2).2 :=
    h2.more (l := exes.map fun e => .listTests e.path) (by simp [Looks]) (by simp) rfl rfl
  refine Rm.bind_state _ h3 fun ets s3 hx => ?_
  rw [hx] at h3
  exact Rm.lift_bind_state _ h3 fun _ _ => h3

/-- With --list or --no-run, whatever else is asked for and whatever the environment does, the program only asks for
versions, builds, lists tests and prints targets, and the file system is changed by nothing but the one build. -/
theorem C27_read_only (o : Opts) (y : Sys) (s : RSt) (h : o.list = true ∨ o.noRun = true) :
    OnlyLooked y s (run o y s).2 ∧ ∃ l, (run o y s).2.acts = s.acts ++ l ∧ ∀ a ∈ l, ¬ Spec.Acts a := by
  have key : OnlyLooked y s (run o y s).2 := by
    have hs : (run o y s).2 = (runWithoutExitCode (effectiveOpts o) y s).2 := by
      unfold run
      split
      · next he => rw [he]; split <;> rfl
      · rfl
    rw [hs]
    have h' : (effectiveOpts o).list = true ∨ (effectiveOpts o).noRun = true := by
      unfold effectiveOpts; split <;> exact h
    generalize effectiveOpts o = o' at h'
    have hp := prepare_looks o' y s
    unfold runWithoutExitCode
    refine Rm.bind_state _ hp fun v s' hx => ?_
    rw [hx] at hp
    obtain ⟨llvm, ets⟩ := v
    simp only
    unfold dispatch
    split
    · exact hp.more (l := [.printTargets ets]) (by simp [Looks]) (by simp) rfl rfl
    · split
      · exact hp
      · next h1 h2 => simp [h1, h2] at h'
  refine ⟨key, ?_⟩
  obtain ⟨l, h1, h2, -⟩ := key
  refine ⟨l, h1, fun a ha hact => ?_⟩
  have := h2 a ha
  cases a <;> first | exact this | exact hact

/-- What --list prints: the selected targets of all executables that have any. -/
theorem C27_list_prints (o : Opts) (y : Sys) (s : RSt) (hl : o.list = true) (hok : (run o y s).1 = .ok ()) :
    ∃ exes ets l, buildResult y.metadata (y.build s.world.fs).1 = .ok exes ∧
      executableTargets y.listing exes = .ok ets ∧
      (run o y s).2.acts = s.acts ++ l ++ [.printTargets (selectTargets o ets)] := by
  have hs : run o y s = runWithoutExitCode (effectiveOpts o) y s := by
    unfold run at hok ⊢
    split
    · next he => rw [he] at hok; dsimp only at hok; split at hok <;> cases hok
    · rfl
  rw [hs] at hok ⊢
  have e1 : (effectiveOpts o).list = true := by unfold effectiveOpts; split <;> exact hl
  have e2 : ∀ ets, selectTargets (effectiveOpts o) ets = selectTargets o ets := by
    intro ets
    unfold effectiveOpts; split
    · rfl
    · rfl
  generalize effectiveOpts o = o' at e1 e2 hok
  rcases hr : runWithoutExitCode o' y s with ⟨r, s'⟩
  rw [hr] at hok; cases hok
  unfold runWithoutExitCode at hr
  obtain ⟨⟨llvm, ets⟩, s1, hp, hd⟩ := Rm.bind_eq_ok hr
  simp only at hd
  unfold dispatch at hd
  simp only [e1, if_true, Rm.act_run, Prod.mk.injEq, true_and] at hd
  subst hd
  unfold prepare at hp
  obtain ⟨_, s2, h1, hp⟩ := Rm.bind_eq_ok hp
  simp only [Rm.lift_run, Prod.mk.injEq] at h1
  obtain ⟨-, rfl⟩ := h1
  rw [Rm.bind_ok (Rm.act_run _ _)] at hp
  unfold gather at hp
  obtain ⟨_, s2, h1, hp⟩ := Rm.bind_eq_ok hp
  simp only [Rm.lift_run, Prod.mk.injEq] at h1
  obtain ⟨-, rfl⟩ := h1
  obtain ⟨_, s2, h1, hp⟩ := Rm.bind_eq_ok hp
  simp only [Rm.lift_run, Prod.mk.injEq] at h1
  obtain ⟨-, rfl⟩ := h1
  obtain ⟨_, s2, h1, hp⟩ := Rm.bind_eq_ok hp
  simp only [Rm.lift_run, Prod.mk.injEq] at h1
  obtain ⟨-, rfl⟩ := h1
  obtain ⟨_, s2, h1, hp⟩ := Rm.bind_eq_ok hp
  simp only [Rm.lift_run, Prod.mk.injEq] at h1
  obtain ⟨-, rfl⟩ := h1
  obtain ⟨exes, s2, h1, hp⟩ := Rm.bind_eq_ok hp
  unfold build at h1
  obtain ⟨_, s3, h2, h1⟩ := Rm.bind_eq_ok h1
  simp only [Rm.lift_run, Prod.mk.injEq] at h2
  obtain ⟨-, rfl⟩ := h2
  obtain ⟨_, s3, h2, h1⟩ := Rm.bind_eq_ok h1
  simp only [Rm.act_run, Prod.mk.injEq] at h2
  obtain ⟨-, rfl⟩ := h2
  simp only [Prod.mk.injEq] at h1
  obtain ⟨hb, rfl⟩ := h1
  obtain ⟨ets0, s3, h2, hp⟩ := Rm.bind_eq_ok hp
  simp only [listTargets, Prod.mk.injEq] at h2
  obtain ⟨hx, rfl⟩ := h2
  obtain ⟨_, s4, h3, hp⟩ := Rm.bind_eq_ok hp
  simp only [Rm.lift_run, Prod.mk.injEq] at h3
  obtain ⟨-, rfl⟩ := h3
  simp only [Rm.pure_run, Prod.mk.injEq, Out.ok.injEq] at hp
  obtain ⟨⟨-, rfl⟩, rfl⟩ := hp
  refine ⟨exes, ets0, ?_, hb, hx, ?_⟩
  rotate_left
  · simp only [e2]
    rw [List.append_assoc s.acts, List.append_assoc s.acts]

/-! ## C41 -/

/-- The fuzzing loop was entered, for the given targets, set up as `k`. -/
def Entered (o : Opts) (y : Sys) (acts : List Act) (k : FCfg) : Prop :=
  ∃ ets, Act.fuzzLoop ets k.nCpus ∈ acts ∧ fuzzSetup o y.numCpus (ets.map Prod.snd) y.vis = .ok k

theorem fuzzSetup_ok {o n ts v k} (h : fuzzSetup o n ts v = .ok k) :
    k = ⟨ts, cpusToUse o n, o.noUi, o.exitCode, v⟩ := by
  unfold fuzzSetup ensure at h
  dsimp only at h
  split at h
  · rw [Out.ok_bind] at h
    split at h
    · split at h
      · rw [Out.ok_bind] at h; cases h; rfl
      · cases h
    · cases h; rfl
  · cases h

/-- `--exit-code`: the status is 2 exactly if an error was returned; 1 exactly if the fuzzing loop, run without the
user interface, was left because a fuzzer ended by itself without having reached its time limit; and if it is 0 and
fuzzers were run by the loop, every one of them reached its time limit or failed, and at least one reached it. -/
theorem C41_status (o : Opts) (hx : o.exitCode = true) (y : Sys) (hloop : ∀ k, LoopResult k (y.loop k)) (s : RSt)
    (h0 : s.acts = []) :
    let r := run o y s
    (processStatus r.1 = some 2 ↔ ∃ e, (runWithoutExitCode { o with noUi := true } y s).1 = .err e) ∧
    (processStatus r.1 = some 1 ↔ ∃ k, Entered { o with noUi := true } y r.2.acts k ∧ y.loop k = .exit 1) ∧
    (processStatus r.1 = some 1 → ∃ k st inp evs ev, Entered { o with noUi := true } y r.2.acts k ∧ k.noUi = true ∧
      Reach k st ∧ iterate k inp st = .exit 1 ∧ inp.poll = some evs ∧ ev ∈ evs ∧ EndsEarly st ev) ∧
    (∀ k, processStatus r.1 = some 0 → Entered { o with noUi := true } y r.2.acts k →
      ∃ st' , (∀ t < k.targets.length, .ended t .timeLimit ∈ st'.log ∨ HasFailed t st'.log) ∧
        (∃ t < k.targets.length, .ended t .timeLimit ∈ st'.log) ∧
        ∃ st inp, Reach k st ∧ iterate k inp st = .ok (.done st')) ∧
    (processStatus r.1 = none ∨ ∃ c ∈ [0, 1, 2, 101], processStatus r.1 = some c) := by
  have heff : effectiveOpts o = { o with noUi := true } := by unfold effectiveOpts; simp [hx]
  have hlo := run_loopOr { o with noUi := true } y s
  have hrun : run o y s = match runWithoutExitCode { o with noUi := true } y s with
      | (.err e, s') => (.exit 2, s')
      | r => r := by
    unfold run; rw [heff]
    generalize runWithoutExitCode { o with noUi := true } y s = w
    obtain ⟨w1, w2⟩ := w
    cases w1 <;> simp [hx]
  generalize hw : runWithoutExitCode { o with noUi := true } y s = w at hlo hrun
  obtain ⟨w1, w2⟩ := w
  rw [hrun]
  simp only
  have hexit : ∀ c, w1 = .exit c → c = 1 ∧ ∃ k st inp evs ev, Entered { o with noUi := true } y w2.acts k ∧
      k.noUi = true ∧ y.loop k = .exit 1 ∧ Reach k st ∧ iterate k inp st = .exit 1 ∧ inp.poll = some evs ∧ ev ∈ evs ∧
      EndsEarly st ev := by
    intro c hc
    rcases hlo with ⟨h1, -⟩ | ⟨l, ets, k, h1, h2, h3, h4⟩
    · exact absurd hc (h1 c)
    · simp only at h4
      have hr := hloop k
      rw [← h4, hc] at hr
      cases hr with
      | exit hreach hv hit =>
        obtain ⟨-, rfl, evs, hp, ev, hm, he⟩ := C41_exit_only_if k _ hreach _ hv _ hit
        refine ⟨rfl, k, _, _, evs, ev, ⟨ets, ?_, h3⟩, ?_, by rw [← h4, hc], hreach, hit, hp, hm, he⟩
        · rw [h1]; simp
        · rw [fuzzSetup_ok h3]
  have hent : ∀ k, Entered { o with noUi := true } y w2.acts k → w1 = y.loop k := by
    rintro k ⟨ets', hm, hk⟩
    rcases hlo with ⟨-, l, h1, h2⟩ | ⟨l, ets, k', h1, h2, h3, h4⟩
    · simp only [h0, List.nil_append] at h1
      rw [h1] at hm
      exact absurd (h2 _ hm) (fun h => h)
    · simp only [h0, List.nil_append] at h1
      rw [h1] at hm
      rcases List.mem_append.mp hm with hm | hm
      · exact absurd (h2 _ hm) (fun h => h)
      · simp only [List.mem_singleton, Act.fuzzLoop.injEq] at hm
        obtain ⟨rfl, -⟩ := hm
        rw [h3] at hk; cases hk
        exact h4
  refine ⟨?_, ?_, ?_, ?_, ?_⟩
  · cases w1 with
    | ok u => simp [processStatus]
    | err e => simp [processStatus]
    | panic => simp [processStatus]
    | crash => simp [processStatus]
    | exit c => obtain ⟨rfl, -⟩ := hexit c rfl; simp [processStatus]
  · constructor
    · intro h
      cases w1 with
      | ok u => simp [processStatus] at h
      | err e => simp [processStatus] at h
      | panic => simp [processStatus] at h
      | crash => simp [processStatus] at h
      | exit c => obtain ⟨rfl, k, st, inp, evs, ev, h1, -, h2, -⟩ := hexit c rfl; exact ⟨k, h1, h2⟩
    · rintro ⟨k, h1, h2⟩
      have h1' : w1 = y.loop k := by
        apply hent k
        cases w1 <;> exact h1
      rw [h2] at h1'; subst h1'
      rfl
  · intro h
    cases w1 with
    | ok u => simp [processStatus] at h
    | err e => simp [processStatus] at h
    | panic => simp [processStatus] at h
    | crash => simp [processStatus] at h
    | exit c =>
      obtain ⟨rfl, k, st, inp, evs, ev, h1, h2, -, h3, h4, h5, h6, h7⟩ := hexit c rfl
      exact ⟨k, st, inp, evs, ev, h1, h2, h3, h4, h5, h6, h7⟩
  · intro k h hE
    cases w1 with
    | ok u =>
      have h1 := hent k hE
      have hr := hloop k
      rw [← h1] at hr
      cases hr with
      | done hreach hit =>
        have hke : k.exitCode = true := by
          obtain ⟨ets, -, hk⟩ := hE
          rw [fuzzSetup_ok hk]; exact hx
        obtain ⟨g1, g2⟩ := C41_normal_end k hke _ _ hreach _ hit
        exact ⟨_, g1, g2, _, _, hreach, hit⟩
    | err e => simp [processStatus] at h
    | panic => simp [processStatus] at h
    | crash => simp [processStatus] at h
    | exit c => obtain ⟨rfl, -⟩ := hexit c rfl; simp [processStatus] at h
  · cases w1 with
    | ok u => exact Or.inr ⟨0, by simp, rfl⟩
    | err e => exact Or.inr ⟨2, by simp, rfl⟩
    | panic => exact Or.inr ⟨101, by simp, rfl⟩
    | crash => exact Or.inl rfl
    | exit c => obtain ⟨rfl, -⟩ := hexit c rfl; exact Or.inr ⟨1, by simp, rfl⟩

/-- Without `--exit-code`: status 0 exactly if there is no error, 1 exactly if there is one. -/
theorem C41_plain_status (o : Opts) (hx : o.exitCode = false) (y : Sys) (hloop : ∀ k, LoopResult k (y.loop k)) (s : RSt) :
    (processStatus (run o y s).1 = some 0 ↔ (runWithoutExitCode o y s).1 = .ok ()) ∧
    (processStatus (run o y s).1 = some 1 ↔ ∃ e, (runWithoutExitCode o y s).1 = .err e) := by
  have heff : effectiveOpts o = o := by unfold effectiveOpts; simp [hx]
  have hrun : run o y s = runWithoutExitCode o y s := by
    unfold run; rw [heff]; simp only [hx, Bool.false_eq_true, if_false]
    split
    · next he => rw [he]
    · rfl
  rw [hrun]
  have hne : ∀ c, (runWithoutExitCode o y s).1 ≠ .exit c := by
    intro c hc
    rcases run_loopOr o y s with ⟨h1, -⟩ | ⟨l, ets, k, h1, h2, h3, h4⟩
    · exact h1 c hc
    · have hr := hloop k
      rw [← h4, hc] at hr
      cases hr with
      | exit hreach hv hit =>
        have := (C41_exit_only_if k _ hreach _ hv _ hit).1
        rw [fuzzSetup_ok h3] at this
        simp [hx] at this
  cases hr : (runWithoutExitCode o y s).1 with
  | exit c => exact absurd hr (hne c)
  | _ => simp [processStatus]

end TF
