import Verif.Props.Modes
import Verif.Props.FuzzSched

/-!
# C98: the command succeeds only if what it depends on did; C46 for the fuzzers actually started
-/

namespace TF

open Spec

/-- A command that had to succeed did, as the last thing done. -/
def Spec.Succeeded (y : Sys) (before : List Act) (c : Cmd) (after : RSt) : Prop :=
  ∃ fs, y.command before c fs = (some true, after.world.fs) ∧ after.acts = before ++ [.command c]

theorem mustSucceed_ok {y : Sys} {c : Cmd} {s s' : RSt} (h : mustSucceed y c s = (.ok (), s')) :
    y.command s.acts c s.world.fs = (some true, s'.world.fs) ∧ s'.acts = s.acts ++ [.command c] := by
  have h2 := mustSucceed_state y c s
  rw [h] at h2
  dsimp only at h2
  subst h2
  refine ⟨?_, rfl⟩
  unfold mustSucceed at h
  rw [Rm.bind_def] at h
  simp only [Rm.command] at h
  rcases hc : y.command s.acts c s.world.fs with ⟨r, f⟩
  rw [hc] at h
  rcases r with _ | b
  · cases h
  · cases b
    · cases h
    · rfl

theorem coverageClean_ok {y : Sys} {llvm} {s s' : RSt} (h : coverageClean y llvm s = (.ok (), s')) :
    ∃ c, c.program = c%"cargo" ∧ c.args = [c%"llvm-cov", c%"clean", c%"--profraw-only"] ∧
      y.command s.acts c s.world.fs = (some true, s'.world.fs) ∧ s'.acts = s.acts ++ [.command c] := by
  unfold coverageClean at h
  obtain ⟨c, s1, h1, h⟩ := Rm.bind_eq_ok h
  simp only [Rm.lift_run, Prod.mk.injEq] at h1
  obtain ⟨hc, rfl⟩ := h1
  obtain ⟨hp, ha⟩ := command_ok hc
  exact ⟨c, hp, ha, mustSucceed_ok h⟩

/-- Only notes. -/
theorem coverageReport_ok {o : Opts} {y : Sys} {llvm} {s s' : RSt} (h : coverageReport o y llvm s = (.ok (), s')) :
    ∃ notes c, c.program = c%"cargo" ∧
      c.args = [c%"llvm-cov", c%"report", c%"--lcov", c%"--output-path=lcov.info"] ++
        (match o.manifestPath with | some p => [c%"--manifest-path", p] | none => []) ∧
      Succeeded y (s.acts ++ List.map Act.note notes) c s' ∧
      (y.lcovExists = some true → notes = [c%"Warning: Overwriting lcov.info"]) ∧
      (y.lcovExists ≠ some true → y.lcovExists = some false ∧ notes = []) := by
  unfold coverageReport at h
  obtain ⟨_, s1, h1, h⟩ := Rm.bind_eq_ok h
  obtain ⟨c, s2, h2, h⟩ := Rm.bind_eq_ok h
  simp only [Rm.lift_run, Prod.mk.injEq] at h2
  obtain ⟨hc, rfl⟩ := h2
  obtain ⟨hp, ha⟩ := command_ok hc
  have hp' : (c.addArgs (match o.manifestPath with | some p => [c%"--manifest-path", p] | none => [])).program =
      c%"cargo" := hp
  have ha' : (c.addArgs (match o.manifestPath with | some p => [c%"--manifest-path", p] | none => [])).args =
      [c%"llvm-cov", c%"report", c%"--lcov", c%"--output-path=lcov.info"] ++
        (match o.manifestPath with | some p => [c%"--manifest-path", p] | none => []) := by
    show c.args ++ _ = _; rw [ha]
  generalize c.addArgs _ = d at h hp' ha'
  obtain ⟨k1, k2⟩ := mustSucceed_ok h
  unfold coverageWarning at h1
  rcases hl : y.lcovExists with _ | b
  · rw [hl] at h1; cases h1
  · rw [hl] at h1
    cases b with
    | true =>
      simp only [Rm.when, if_true, Rm.act_run, Prod.mk.injEq] at h1
      obtain ⟨-, rfl⟩ := h1
      exact ⟨[c%"Warning: Overwriting lcov.info"], d, hp', ha', ⟨_, k1, k2⟩, fun _ => rfl, fun h => absurd rfl h⟩
    | false =>
      have h1 : s = s1 := congrArg Prod.snd h1
      subst h1
      refine ⟨[], d, hp', ha', ⟨s.world.fs, ?_, ?_⟩, fun h => (nomatch h), fun _ => ⟨rfl, rfl⟩⟩
      · rw [List.map_nil, List.append_nil]; exact k1
      · rw [List.map_nil, List.append_nil]; exact k2

/-- Without coverage there are no variables for it. -/
theorem prepare_llvm {o : Opts} {y : Sys} {s s' : RSt} {x : List (Str × Str) × List (Exe × List Str)}
    (h : prepare o y s = (.ok x, s')) (ho : o.coverage = none) : x.1 = [] := by
  unfold prepare at h
  obtain ⟨_, s1, h1, h⟩ := Rm.bind_eq_ok h
  obtain ⟨_, s1, h1, h⟩ := Rm.bind_eq_ok h
  unfold gather at h
  obtain ⟨_, s1, h1, h⟩ := Rm.bind_eq_ok h
  obtain ⟨_, s1, h1, h⟩ := Rm.bind_eq_ok h
  obtain ⟨_, s1, h1, h⟩ := Rm.bind_eq_ok h
  obtain ⟨llvm, s1, h1, h⟩ := Rm.bind_eq_ok h
  simp only [Rm.lift_run, Prod.mk.injEq, C60_none o _ _ _ ho] at h1
  obtain ⟨h1, -⟩ := h1
  cases h1
  obtain ⟨_, s1, h1, h⟩ := Rm.bind_eq_ok h
  obtain ⟨_, s1, h1, h⟩ := Rm.bind_eq_ok h
  obtain ⟨_, s1, h1, h⟩ := Rm.bind_eq_ok h
  cases h
  rfl

/-- What a successful command has in common in all modes. -/
theorem run_prepared {o : Opts} {y : Sys} {s : RSt} (hok : (run o y s).1 = .ok ()) :
    ∃ exes ets llvm s1 l, buildResult y.metadata (y.build s.world.fs).1 = .ok exes ∧
      executableTargets y.listing exes = .ok ets ∧ (∀ a ∈ l, Looks a) ∧ s1.acts = s.acts ++ l ∧
      s1.world = ⟨(y.build s.world.fs).2, s.world.tick⟩ ∧ (o.coverage = none → llvm = []) ∧
      dispatch (effectiveOpts o) y llvm (selectTargets o ets) s1 = (.ok (), (run o y s).2) := by
  have e2 : ∀ ets, selectTargets (effectiveOpts o) ets = selectTargets o ets := by
    intro ets; unfold effectiveOpts; split <;> rfl
  have e5 : (effectiveOpts o).coverage = o.coverage := by unfold effectiveOpts; split <;> rfl
  rw [run_ok_iff] at hok
  rw [run_state, ← e5]
  simp only [← e2]
  generalize effectiveOpts o = o' at *
  unfold runWithoutExitCode at hok ⊢
  have hplain := prepare_plain o' y (P := Looks) (fun _ h => h) s
  have hok' : (prepare o' y >>= fun x => dispatch o' y x.1 x.2) s =
      (.ok (), ((prepare o' y >>= fun x => dispatch o' y x.1 x.2) s).2) := Prod.ext hok rfl
  obtain ⟨⟨llvm, sel⟩, s1, h1, h⟩ := Rm.bind_eq_ok hok'
  obtain ⟨cafl, exes, ets, -, h2, h3, h4, -, h6⟩ := prepare_ok h1
  rw [h1] at hplain
  obtain ⟨-, l, hl, hlooks⟩ := hplain
  dsimp only at h4; subst h4
  exact ⟨exes, ets, llvm, s1, l, h2, h3, hlooks, hl, h6, prepare_llvm h1, h⟩

/-- **C98 (coverage).** A coverage run succeeds only if the data of earlier runs was deleted before any harness was
started, and the report was written after the last; both commands succeeded. -/
theorem C98_coverage (o : Opts) (ho : Wants o .replaying) (ob : Object) (hc : o.coverage = some ob) (y : Sys) (s : RSt)
    (hok : (run o y s).1 = .ok ()) :
    ∃ (pre mid : List Act) (warning : List Str) (clean report : Cmd) (fs : FS), (∀ a ∈ pre, Looks a) ∧
      clean.program = c%"cargo" ∧ clean.args = [c%"llvm-cov", c%"clean", c%"--profraw-only"] ∧
      y.command (s.acts ++ pre) clean (y.build s.world.fs).2 = (some true, fs) ∧
      (∀ a ∈ mid, ∀ c, a ≠ .command c) ∧ report.program = c%"cargo" ∧
      report.args = [c%"llvm-cov", c%"report", c%"--lcov", c%"--output-path=lcov.info"] ++
        (match o.manifestPath with | some p => [c%"--manifest-path", p] | none => []) ∧
      Succeeded y (s.acts ++ pre ++ .command clean :: (mid ++ warning.map .note)) report (run o y s).2 ∧
      (y.lcovExists = some true ∧ warning = [c%"Warning: Overwriting lcov.info"] ∨
        y.lcovExists = some false ∧ warning = []) := by
  have e5 : (effectiveOpts o).coverage = o.coverage := by unfold effectiveOpts; split <;> rfl
  have e6 : (effectiveOpts o).manifestPath = o.manifestPath := by unfold effectiveOpts; split <;> rfl
  obtain ⟨exes, ets, llvm, s1, l, -, -, hl, ha, hw, -, h⟩ := run_prepared hok
  rw [dispatch_eq (wants_effective.mpr ho)] at h
  simp only at h
  rw [← e6]
  rw [← e5] at hc
  generalize effectiveOpts o = o' at *
  generalize (run o y s).2 = sf at *
  unfold replayAll at h
  rw [hc] at h
  simp only [Option.isSome_some, Rm.when, if_true] at h
  obtain ⟨_, s2, h1, h⟩ := Rm.bind_eq_ok h
  obtain ⟨clean, p1, p2, p3, p4⟩ := coverageClean_ok h1
  obtain ⟨flat, s3, h2, h⟩ := Rm.bind_eq_ok h
  simp only [Rm.lift_run, Prod.mk.injEq] at h2
  obtain ⟨-, rfl⟩ := h2
  obtain ⟨_, s4, h3, h⟩ := Rm.bind_eq_ok h
  obtain ⟨mid, q1, q2⟩ := replayLoop_belongs o' { o' with coverage := none } y (decide (flat.length > 1)) flat s2
  rw [h3] at q1
  obtain ⟨notes, report, r1, r2, ⟨fs, r3, r4⟩, r5, r6⟩ := coverageReport_ok h
  rw [ha] at p3 p4
  rw [show s1.world.fs = (y.build s.world.fs).2 by rw [hw]] at p3
  dsimp only at q1
  rw [q1, p4] at r3 r4
  refine ⟨l, mid, notes, clean, report, _, hl, p1, p2, p3, ?_, r1, r2, ⟨fs, ?_, ?_⟩, ?_⟩
  · intro a hm c hac
    subst hac
    have := q2 _ hm
    cases this with
    | coverage h _ _ => exact h rfl
  · simpa using r3
  · simpa using r4
  · by_cases hv : y.lcovExists = some true
    · exact .inl ⟨hv, r5 hv⟩
    · exact .inr (r6 hv)

/-- The time bound and the user interface of a fuzzer that the loop starts: the configuration is that of the loop. -/
theorem C46_loop (o : Opts) (y : Sys) (llvm : List (Str × Str)) (k : FCfg) (ets : List (Exe × Str))
    (hk : fuzzSetup o y.numCpus (ets.map Prod.snd) y.vis = .ok k) (t sl : Nat)
    (first : Bool) (exe : Exe) (target : Str) (he : ets[t]? = some (exe, target)) (cmd : Cmd)
    (hc : loopCommand o y llvm k ets (.start t sl first) = some (.ok cmd))
    (hb : ∀ t, o.timeout = some t → t * 1000 < 2 ^ 64) :
    ∃ (corpus out : Path) (opts : List (Str × Str)), corpusDirFromTarget y.ctx exe.name target = .ok corpus ∧
      outputDirFromTarget y.ctx exe.name target = .ok out ∧ cmd.program = c%"cargo" ∧
      cmd.args = [c%"afl", c%"fuzz", c%"-c-"] ++ opts.flatMap (fun x => [x.1, x.2]) ++ o.zzargs ++
        [c%"--", exe.path, c%"--exact", target ++ c%"_fuzz__::entry"] ∧
      (opts.map Prod.fst).Nodup ∧
      (∀ x ∈ opts, FuzzerOption o corpus out (!o.resume && first) (decide (ets.length ≤ k.nCpus)) x.1 x.2) ∧
      (∀ k' v, FuzzerOption o corpus out (!o.resume && first) (decide (ets.length ≤ k.nCpus)) k' v →
        ∃ v', (k', v') ∈ opts) ∧
      ∀ parent : Env, (∀ x ∈ llvm, x.1 ≠ c%"AFL_NO_UI" ∧ x.1 ≠ c%"AFL_BENCH_UNTIL_CRASH") →
        cmd.childEnv parent c%"AFL_NO_UI" = (if o.noUi then some (.utf8 c%"1") else parent c%"AFL_NO_UI") ∧
        cmd.childEnv parent c%"AFL_BENCH_UNTIL_CRASH" =
          (if o.runUntilCrash then some (.utf8 c%"1") else parent c%"AFL_BENCH_UNTIL_CRASH") := by
  have hkt : k.targets = ets.map Prod.snd := by rw [fuzzSetup_ok hk]
  have hs : k.sufficient = decide (ets.length ≤ k.nCpus) := by
    have := sufficient_iff k
    rw [hkt, List.length_map] at this
    by_cases h : ets.length ≤ k.nCpus
    · rw [this.mpr h, decide_eq_true h]
    · rw [decide_eq_false h, ← Bool.not_eq_true, this]; exact h
  simp only [loopCommand, he, Option.map_some, Option.some.injEq] at hc
  rw [hs] at hc
  obtain ⟨corpus, out, opts, h1, h2, h3, h4, h5, h6, h7⟩ := C46_command_line _ _ _ _ _ _ _ _ hc hb
  refine ⟨corpus, out, opts, h1, h2, h3, h4, h5, h6, h7, fun parent hl => ?_⟩
  obtain ⟨g1, g2⟩ := C46_environment _ _ _ _ _ _ _ _ hc parent hl
  refine ⟨?_, g2⟩
  rw [g1]
  cases o.noUi <;> rfl

/-- **C98 (fuzzing).** When one target is fuzzed (and `--exit-code` is not given), the command succeeds only if the fuzzer
did; it is the last thing done, has the time to itself and shows its interface unless `--no-ui` is given. -/
theorem C98_fuzzer (o : Opts) (ho : Wants o .fuzzing) (y : Sys) (s : RSt) (hx : o.exitCode = false) (exes ets)
    (hexes : buildResult y.metadata (y.build s.world.fs).1 = .ok exes) (hets : executableTargets y.listing exes = .ok ets)
    (exe : Exe) (target : Str) (hone : pairs (selectTargets o ets) = [(exe, target)])
    (hb : ∀ t, o.timeout = some t → t * 1000 < 2 ^ 64) (hok : (run o y s).1 = .ok ()) :
    ∃ (before : List Act) (cmd : Cmd) (corpus out : Path) (opts : List (Str × Str)),
      Succeeded y before cmd (run o y s).2 ∧
      corpusDirFromTarget y.ctx exe.name target = .ok corpus ∧
      outputDirFromTarget y.ctx exe.name target = .ok out ∧ cmd.program = c%"cargo" ∧
      cmd.args = [c%"afl", c%"fuzz", c%"-c-"] ++ opts.flatMap (fun x => [x.1, x.2]) ++ o.zzargs ++
        [c%"--", exe.path, c%"--exact", target ++ c%"_fuzz__::entry"] ∧
      (opts.map Prod.fst).Nodup ∧
      (∀ x ∈ opts, FuzzerOption o corpus out (!o.resume) true x.1 x.2) ∧
      (∀ k' v, FuzzerOption o corpus out (!o.resume) true k' v → ∃ v', (k', v') ∈ opts) ∧
      ∀ parent : Env, cmd.childEnv parent c%"AFL_NO_UI" = (if o.noUi then some (.utf8 c%"1") else parent c%"AFL_NO_UI") ∧
        cmd.childEnv parent c%"AFL_BENCH_UNTIL_CRASH" =
          (if o.runUntilCrash then some (.utf8 c%"1") else parent c%"AFL_BENCH_UNTIL_CRASH") := by
  have hcov : o.coverage = none := by
    cases ho with
    | fuzzing _ _ _ h =>
      unfold AsksReplay at h
      by_contra hc
      exact h (.inl hc)
  have e0 : effectiveOpts o = o := by unfold effectiveOpts; rw [hx]; rfl
  obtain ⟨exes', ets', llvm, s1, l, g1, g2, hl, ha, hw, hllvm, h⟩ := run_prepared hok
  rw [hexes] at g1; cases g1
  rw [hets] at g2; cases g2
  rw [e0, dispatch_eq ho] at h
  generalize (run o y s).2 = sf at *
  simp only at h
  obtain ⟨flat, s2, h1, h⟩ := Rm.bind_eq_ok h
  simp only [Rm.lift_run, Prod.mk.injEq] at h1
  obtain ⟨hf, rfl⟩ := h1
  obtain ⟨rfl, -⟩ := flatten_eq hf
  rw [hone] at h
  unfold fuzz at h
  obtain ⟨_, s2, h1, h⟩ := Rm.bind_eq_ok h
  obtain ⟨_, s3, h2, h⟩ := Rm.bind_eq_ok h
  rw [hx] at h
  simp only at h
  obtain ⟨cmd, s4, h3, h⟩ := Rm.bind_eq_ok h
  have h3' : (fuzzCommandIO y.checks o y.ctx llvm ⟨!o.noUi, true, true⟩ exe target y.plan s3.world).1 = .ok cmd := by
    have := congrArg Prod.fst h3
    exact this
  have hcmd := fuzzCommandIO_ok h3'
  obtain ⟨k1, k2⟩ := mustSucceed_ok (y := y) (c := cmd) (s := s4) (s' := sf) h
  obtain ⟨corpus, out, opts, c1, c2, c3, c4, c5, c6, c7⟩ := C46_command_line _ _ _ _ _ _ _ _ hcmd hb
  simp only [Bool.and_true] at c6 c7
  refine ⟨s4.acts, cmd, corpus, out, opts, ⟨_, k1, k2⟩, c1, c2, c3, c4, c5, c6, c7, fun parent => ?_⟩
  cases hllvm hcov
  obtain ⟨g1, g2⟩ := C46_environment _ _ _ _ _ _ _ _ hcmd parent (by simp)
  refine ⟨?_, g2⟩
  rw [g1]
  cases o.noUi <;> rfl

theorem executableTargets_listed {run : Exe → Option Bytes} {es : List Exe} {ets : List (Exe × List Str)}
    (h : executableTargets run es = .ok ets) : ∀ e ∈ es, run e ≠ none := by
  unfold executableTargets at h
  cases ha : allTargets run es with
  | ok all =>
    clear h
    induction es generalizing all with
    | nil => simp
    | cons x es ih =>
      unfold allTargets at ha
      cases ht : targets (run x) with
      | ok ts =>
        rw [ht, Out.ok_bind] at ha
        cases hr : allTargets run es with
        | ok rest =>
          intro e he
          rcases List.mem_cons.mp he with rfl | he
          · intro hn; rw [hn] at ht; cases ht
          · exact ih rest hr e he
        | _ => rw [hr] at ha; cases ha
      | _ => rw [ht] at ha; cases ha
  | _ => rw [ha] at h; cases h

/-- **C98 (build).** Whatever is asked for: the command succeeds only if the build did and every executable could be
listed. -/
theorem C98_build (o : Opts) (y : Sys) (s : RSt) (hok : (run o y s).1 = .ok ()) :
    ∃ (messages : List Message) (exes : List Exe), (y.build s.world.fs).1 = .done messages (some true) ∧
      executablesOf y.metadata messages = .ok exes ∧ ∀ e ∈ exes, y.listing e ≠ none := by
  obtain ⟨exes, ets, llvm, s1, l, g1, g2, -⟩ := run_prepared hok
  have g3 := executableTargets_listed g2
  rcases hb : (y.build s.world.fs).1 with _ | _ | ⟨msgs, _ | _ | _⟩ <;> rw [hb] at g1
  · cases g1
  · cases g1
  · cases g1
  · cases g1
  · exact ⟨msgs, exes, rfl, g1, g3⟩

/-- How the fuzzing loop is to be configured. -/
def Spec.loopConfig (o : Opts) (y : Sys) (names : List Str) : FCfg :=
  { targets := names
    nCpus := min (match o.cpus with | some n => n | none => y.numCpus - 1) y.numCpus
    noUi := o.noUi || o.exitCode
    exitCode := o.exitCode
    vis := y.vis }

/-- **C98 (several targets).** Otherwise it succeeds only if the fuzzing loop, for the selected targets and as many cpus
as asked for, did. -/
theorem C98_loop (o : Opts) (ho : Wants o .fuzzing) (y : Sys) (s : RSt) (exes ets)
    (hexes : buildResult y.metadata (y.build s.world.fs).1 = .ok exes) (hets : executableTargets y.listing exes = .ok ets)
    (hmany : o.exitCode = true ∨ (pairs (selectTargets o ets)).length ≠ 1) (hok : (run o y s).1 = .ok ()) :
    let k := loopConfig o y ((pairs (selectTargets o ets)).map Prod.snd)
    1 ≤ k.nCpus ∧ (k.nCpus < k.targets.length → o.maxTotalTime = none) ∧ y.loop k = .ok () ∧
      ∃ before, (run o y s).2.acts = before ++ [.fuzzLoop (pairs (selectTargets o ets)) k.nCpus] := by
  intro k
  have ex : (effectiveOpts o).exitCode = o.exitCode := by unfold effectiveOpts; split <;> rfl
  have eu : (effectiveOpts o).noUi = (o.noUi || o.exitCode) := by
    unfold effectiveOpts; split <;> rename_i h <;> simp [h]
  have em : (effectiveOpts o).maxTotalTime = o.maxTotalTime := by unfold effectiveOpts; split <;> rfl
  obtain ⟨exes', ets', llvm, s1, l, g1, g2, hl, ha, hw, -, h⟩ := run_prepared hok
  rw [hexes] at g1; cases g1
  rw [hets] at g2; cases g2
  rw [dispatch_eq (wants_effective.mpr ho)] at h
  simp only at h
  rw [← ex] at hmany
  have ec : cpusToUse (effectiveOpts o) y.numCpus = k.nCpus := by
    unfold cpusToUse effectiveOpts
    show _ = min (match o.cpus with | some n => n | none => y.numCpus - 1) y.numCpus
    split <;> cases o.cpus <;> rfl
  have ek : k = ⟨(pairs (selectTargets o ets)).map Prod.snd, cpusToUse (effectiveOpts o) y.numCpus, (effectiveOpts o).noUi,
      (effectiveOpts o).exitCode, y.vis⟩ := by rw [ec, ex, eu]; rfl
  clear_value k
  rw [← em]
  generalize effectiveOpts o = o' at *
  generalize (run o y s).2 = sf at *
  obtain ⟨flat, s2, h1, h⟩ := Rm.bind_eq_ok h
  simp only [Rm.lift_run, Prod.mk.injEq] at h1
  obtain ⟨hf, rfl⟩ := h1
  obtain ⟨rfl, -⟩ := flatten_eq hf
  generalize pairs (selectTargets o ets) = ps at *
  unfold fuzz at h
  obtain ⟨_, s2, h1, h⟩ := Rm.bind_eq_ok h
  obtain ⟨_, s3, h2, h⟩ := Rm.bind_eq_ok h
  have h : fuzzMany o' y ps s3 = (.ok (), sf) := by
    rcases hx : o'.exitCode with _ | _
    · rw [hx] at h hmany
      rcases ps with _ | ⟨a, _ | ⟨b, ps⟩⟩
      · exact h
      · simp at hmany
      · exact h
    · rw [hx] at h
      exact h
  unfold fuzzMany at h
  obtain ⟨k', s4, h3, h⟩ := Rm.bind_eq_ok h
  simp only [Rm.lift_run, Prod.mk.injEq] at h3
  obtain ⟨hk, rfl⟩ := h3
  have hk' := fuzzSetup_ok hk
  rw [← ek] at hk'
  subst k'
  rw [Rm.bind_ok (Rm.act_run _ _)] at h
  simp only [Rm.loop, Prod.mk.injEq] at h
  obtain ⟨hloop, rfl⟩ := h
  unfold fuzzSetup ensure at hk
  dsimp only at hk
  split at hk
  · next hn =>
    rw [Out.ok_bind] at hk
    refine ⟨by rw [ek]; simpa using hn, fun hlt => ?_, hloop, s3.acts, rfl⟩
    split at hk
    · split at hk
      · next hn => simpa using hn
      · cases hk
    · next hsuf =>
      exfalso
      have h1 := (sufficient_iff k).mp (by rw [ek]; simpa using hsuf)
      omega
  · cases hk

open Demo

/-- C98_coverage: two inputs of one target; the report is the last thing. If a command fails, so does the whole. -/
example : Wants { opts with coverage := some .corpus, ztarget := some c%"a" } .replaying ∧
    (run { opts with coverage := some .corpus, ztarget := some c%"a" } sys start).1 = .ok () ∧
    ((run { opts with coverage := some .corpus, ztarget := some c%"a" } sys start).2.acts.filterMap
      fun | .command c => some c.args | .harness _ _ _ _ => some [c%"harness"] | _ => none) =
      [[c%"llvm-cov", c%"clean", c%"--profraw-only"], [c%"harness"], [c%"harness"],
        [c%"llvm-cov", c%"report", c%"--lcov", c%"--output-path=lcov.info"]] ∧
    (run { opts with coverage := some .corpus, ztarget := some c%"a" }
      { sys with command := fun _ _ fs => (some false, fs) } start).1 = .err c%"Command failed:" := by
  refine ⟨.replaying rfl rfl (by unfold AsksStorage; decide) (by unfold AsksReplay; decide), by decide +kernel,
    by decide +kernel, by decide +kernel⟩

/-- C98_fuzzer: one target, with a corpus. -/
example : Wants { opts with ztarget := some c%"a", maxTotalTime := some 60 } .fuzzing ∧
    buildResult sys.metadata (sys.build start.world.fs).1 = .ok [exe] ∧
    executableTargets sys.listing [exe] = .ok [(exe, [c%"a", c%"b"])] ∧
    pairs (selectTargets { opts with ztarget := some c%"a", maxTotalTime := some 60 } [(exe, [c%"a", c%"b"])]) = [(exe, c%"a")] ∧
    (run { opts with ztarget := some c%"a", maxTotalTime := some 60 } sys start).1 = .ok () ∧
    ((run { opts with ztarget := some c%"a", maxTotalTime := some 60 } sys start).2.acts.filterMap
      fun | .command c => some c.args | _ => none) =
      [[c%"afl", c%"fuzz", c%"-c-", c%"-i", c%"/t/corpus/p::a", c%"-o", c%"/t/afl/output/p::a", c%"-M", c%"default",
        c%"-V", c%"60", c%"--", c%"/t/p", c%"--exact", c%"a_fuzz__::entry"]] := by
  refine ⟨.fuzzing rfl rfl (by unfold AsksStorage; decide) (by unfold AsksReplay; decide), by decide +kernel,
    by decide +kernel, by decide +kernel, by decide +kernel, by decide +kernel⟩

/-- C98_loop: the same with `--exit-code`, in a system whose loop ends well. -/
example : let o := { opts with ztarget := some c%"a", exitCode := true }
    Wants o .fuzzing ∧ o.exitCode = true ∧ (run o { sys with loop := fun _ => .ok () } start).1 = .ok () ∧
    (run o { sys with loop := fun _ => .err c%"x" } start).1 = .exit 2 := by
  refine ⟨.fuzzing rfl rfl (by unfold AsksStorage; decide) (by unfold AsksReplay; decide), rfl, by decide +kernel,
    by decide +kernel⟩

/-- C46_loop: two targets on one cpu; the second fuzzer of the second target. -/
example : ∃ k, fuzzSetup { opts with cpus := some 1, slice := 1200 } sys.numCpus [c%"a", c%"b"] sys.vis = .ok k ∧
    loopCommand { opts with cpus := some 1, slice := 1200 } sys [] k [(exe, c%"a"), (exe, c%"b")] (.start 1 0 false) =
      some (.ok ⟨c%"cargo", [c%"afl", c%"fuzz", c%"-c-", c%"-i", c%"-", c%"-o", c%"/t/afl/output/p::b", c%"-M", c%"default",
        c%"-V", c%"1200", c%"--", c%"/t/p", c%"--exact", c%"b_fuzz__::entry"],
        [(c%"TEST_FUZZ", some c%"1"), (c%"TEST_FUZZ_WRITE", some c%"0")], none⟩) :=
  ⟨_, rfl, by decide +kernel⟩

end TF
