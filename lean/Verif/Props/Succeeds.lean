import Verif.Spec.Succeeds
import Verif.Props.FuzzIO
import Verif.Props.Panics
import Verif.Props.Displayed

/-!
# C110: the command succeeds when nothing goes wrong
-/

namespace TF

open Spec

theorem checkObjects_iff (o : Opts) : checkObjects o = .ok () ↔
    (∀ ob, o.coverage = some ob → ob = .corpus ∨ ob = .crashes ∨ ob = .hangs ∨ ob = .queue) ∧
      ∀ ob, o.replay = some ob → ob ≠ .genericArgs ∧ ob ≠ .implGenericArgs := by
  unfold checkObjects checkCoverage checkReplay
  rcases o.coverage with _ | a <;> rcases o.replay with _ | b
  · simp [Bind.bind, Out.bind]
  · cases b <;> simp [Bind.bind, Out.bind, ensure]
  · cases a <;> simp [Bind.bind, Out.bind, ensure]
  · cases a <;> cases b <;> simp [Bind.bind, Out.bind, ensure]

theorem optsTargetDirectory_iff (o : Opts) (c : Ctx) :
    (∃ d, optsTargetDirectory o c = .ok d) ↔ c.metadata (c.env.var c%"TEST_FUZZ_MANIFEST_PATH") ≠ none := by
  have h : (!(includeCoverage o && includeFuzzing o)) = true := by
    unfold includeCoverage includeFuzzing
    cases o.coverage <;> simp
  unfold optsTargetDirectory targetDirectory assert
  rw [h]
  rcases hm : c.metadata (c.env.var c%"TEST_FUZZ_MANIFEST_PATH") with _ | d
  · simp [Bind.bind, Out.bind]
  · simp [Bind.bind, Out.bind]

theorem llvmEnvLines_iff (t n : Str) (ls : List Str) : (∃ r, llvmEnvLines t n ls = .ok r) ↔ ∀ l ∈ ls, '=' ∈ l := by
  induction ls with
  | nil => simp [llvmEnvLines]
  | cons l ls ih =>
    rw [List.forall_mem_cons, ← ih]
    simp only [llvmEnvLines, llvmEnvLine]
    rcases hs : splitOnce '=' l with _ | ⟨a, b⟩
    · have : '=' ∉ l := (splitOnce_none _ _).mp hs
      simp [Bind.bind, Out.bind, this]
    · have : '=' ∈ l := by
        have := (splitOnce_eq_some _ _ _ _).mp hs
        rw [this.1]; simp
      rcases llvmEnvLines t n ls <;> simp [Bind.bind, Out.bind, this]

theorem llvmEnvs_iff (o : Opts) (t n : Str) (se : Option (List Str)) : (∃ r, llvmEnvs o t n se = .ok r) ↔
    (o.coverage ≠ none → ∃ ls, se = some ls ∧ ∀ l ∈ ls, '=' ∈ l) := by
  unfold llvmEnvs
  rcases o.coverage with _ | a
  · simp
  · rcases se with _ | ls
    · simp
    · simp [llvmEnvLines_iff]

/-- What it takes to make the preparations. -/
theorem prepare_of {o : Opts} {y : Sys} {s : RSt} {sel} (h : Determines o y s sel) :
    ∃ llvm s', prepare o y s = (.ok (llvm, sel), s') ∧ s'.world = ⟨(y.build s.world.fs).2, s.world.tick⟩ := by
  obtain ⟨messages, exes, ets, hb, he, hl, rfl⟩ := h.targets
  obtain ⟨cafl, hc, hv⟩ := h.versions
  obtain ⟨dir, hd⟩ := (optsTargetDirectory_iff o y.ctx).mpr h.directory
  obtain ⟨ws, hw⟩ := Option.ne_none_iff_exists'.mp h.workspace
  obtain ⟨llvm, hll⟩ := (llvmEnvs_iff o (pathStr ws) (pathStr dir) y.showEnv).mpr h.showEnv
  have hr : buildResult y.metadata (y.build s.world.fs).1 = .ok exes := by rw [hb]; exact he
  have hver : checkVersions y.ctf cafl ((selectTargets o ets).map fun x => x.1.versions) = .ok () := by
    rw [C25_all_checked]
    intro e hx
    obtain ⟨x, hx', rfl⟩ := List.mem_map.mp hx
    rw [suits_iff, suits_iff]
    exact hv x hx'
  unfold prepare
  rw [(checkObjects_iff o).mpr ⟨h.coverage, h.replay⟩, Rm.lift_ok_bind, Rm.bind_ok (Rm.act_run _ _)]
  unfold gather
  rw [hc]
  simp only [mustHave, Rm.lift_ok_bind, hd, hw, hll]
  have hbuild : ∀ q s1, s1.world = s.world → ∃ s2, build o y q s1 = (.ok exes, s2) ∧
      s2.world = ⟨(y.build s.world.fs).2, s.world.tick⟩ := by
    intro q s1 hs1
    unfold build
    rw [hd, Rm.lift_ok_bind]
    refine ⟨⟨⟨(y.build s1.world.fs).2, s1.world.tick⟩, _⟩, Prod.ext ?_ rfl, by rw [hs1]⟩
    show buildResult y.metadata (y.build s1.world.fs).1 = _
    rw [hs1, hr]
  obtain ⟨s2, hb2, hw2⟩ := hbuild (o.coverage.isSome || o.display.isSome || o.replay.isSome)
    { s with acts := s.acts ++ [.aflVersion] } rfl
  refine ⟨llvm, { s2 with acts := s2.acts ++ exes.map fun e => .listTests e.path }, ?_, hw2⟩
  rw [Rm.bind_ok hb2]
  have hlist : listTargets y exes s2 = (.ok ets, { s2 with acts := s2.acts ++ exes.map fun e => .listTests e.path }) := by
    unfold listTargets; rw [hl]
  rw [Rm.bind_ok hlist, hver, Rm.lift_ok_bind]
  rfl

theorem prepare_needs {o : Opts} {y : Sys} {s s' : RSt} {x : List (Str × Str) × List (Exe × List Str)}
    (h : prepare o y s = (.ok x, s')) : Determines o y s x.2 := by
  obtain ⟨cafl, exes, ets, ha, hb, hx, hsel, hv, -⟩ := prepare_ok h
  unfold prepare at h
  obtain ⟨_, s1, h1, h⟩ := Rm.bind_eq_ok h
  simp only [Rm.lift_run, Prod.mk.injEq] at h1
  obtain ⟨hobj, rfl⟩ := h1
  obtain ⟨hcov, hrep⟩ := (checkObjects_iff o).mp hobj
  rw [Rm.bind_ok (Rm.act_run _ _)] at h
  unfold gather at h
  obtain ⟨_, s2, h1, h⟩ := Rm.bind_eq_ok h
  simp only [Rm.lift_run, Prod.mk.injEq] at h1
  obtain ⟨-, rfl⟩ := h1
  obtain ⟨dir, s3, h2, h⟩ := Rm.bind_eq_ok h
  simp only [Rm.lift_run, Prod.mk.injEq] at h2
  obtain ⟨hdir, rfl⟩ := h2
  obtain ⟨ws, s4, h3, h⟩ := Rm.bind_eq_ok h
  simp only [Rm.lift_run, Prod.mk.injEq] at h3
  obtain ⟨hws, rfl⟩ := h3
  obtain ⟨llvm, s5, h4, h⟩ := Rm.bind_eq_ok h
  simp only [Rm.lift_run, Prod.mk.injEq] at h4
  obtain ⟨hll, rfl⟩ := h4
  refine ⟨hcov, hrep, (optsTargetDirectory_iff o y.ctx).mp ⟨dir, hdir⟩, ?_,
    (llvmEnvs_iff o (pathStr ws) (pathStr dir) y.showEnv).mp ⟨llvm, hll⟩, ?_, cafl, ha, ?_⟩
  · intro hn; rw [hn] at hws; cases hws
  · rcases hbd : (y.build s.world.fs).1 with _ | _ | ⟨msgs, _ | _ | _⟩ <;> rw [hbd] at hb
    · cases hb
    · cases hb
    · cases hb
    · cases hb
    · exact ⟨msgs, exes, ets, rfl, hb, hx, hsel⟩
  · rw [C25_all_checked] at hv
    intro z hz
    rw [hsel] at hz
    have := hv _ (List.mem_map.mpr ⟨z, hz, rfl⟩)
    rwa [suits_iff, suits_iff] at this

theorem determines_effective {o : Opts} {y : Sys} {s : RSt} {sel} :
    Determines (effectiveOpts o) y s sel ↔ Determines o y s sel := by
  have e2 : ∀ ets, selectTargets (effectiveOpts o) ets = selectTargets o ets := by
    intro ets; unfold effectiveOpts; split <;> rfl
  have e5 : (effectiveOpts o).coverage = o.coverage := by unfold effectiveOpts; split <;> rfl
  have e6 : (effectiveOpts o).replay = o.replay := by unfold effectiveOpts; split <;> rfl
  have e7 : (effectiveOpts o).manifestPath = o.manifestPath := by unfold effectiveOpts; split <;> rfl
  constructor
  · rintro ⟨h1, h2, h3, h4, h5, h6, h7⟩
    rw [e5] at h1 h5; rw [e6] at h2; rw [e7] at h4; simp only [e2] at h6
    exact ⟨h1, h2, h3, h4, h5, h6, h7⟩
  · rintro ⟨h1, h2, h3, h4, h5, h6, h7⟩
    rw [← e5] at h1 h5; rw [← e6] at h2; rw [← e7] at h4; simp only [← e2] at h6
    exact ⟨h1, h2, h3, h4, h5, h6, h7⟩

/-- Whatever the mode, the command succeeds exactly if it finds out what to work on and its mode's work succeeds. -/
theorem run_ok_prepared {o : Opts} {m : Mode} (hm : Wants o m) (y : Sys) (s : RSt) : (run o y s).1 = .ok () ↔
    ∃ llvm sel s', Determines o y s sel ∧ prepare (effectiveOpts o) y s = (.ok (llvm, sel), s') ∧
      (dispatch (effectiveOpts o) y llvm sel s').1 = .ok () := by
  rw [run_ok_iff]
  unfold runWithoutExitCode
  constructor
  · intro h
    have h' : (prepare (effectiveOpts o) y >>= fun x => dispatch (effectiveOpts o) y x.1 x.2) s =
      (.ok (), ((prepare (effectiveOpts o) y >>= fun x => dispatch (effectiveOpts o) y x.1 x.2) s).2) := Prod.ext h rfl
    obtain ⟨⟨llvm, sel⟩, s1, h1, h2⟩ := Rm.bind_eq_ok h'
    exact ⟨llvm, sel, s1, determines_effective.mp (prepare_needs h1), h1, congrArg Prod.fst h2⟩
  · rintro ⟨llvm, sel, s', -, h1, h2⟩
    rw [Rm.bind_ok h1]
    exact h2

/-- **C110 (listing, building).** `--list` and `--no-run` succeed exactly if the options are valid, the build succeeds, each
executable can be listed, and the versions go together – also if there are no targets at all. -/
theorem C110_lists (o : Opts) (hm : Wants o .listing ∨ Wants o .building) (y : Sys) (s : RSt) :
    (run o y s).1 = .ok () ↔ ∃ sel, Determines o y s sel := by
  have key : ∀ m, Wants o m → m = .listing ∨ m = .building →
      ((run o y s).1 = .ok () ↔ ∃ sel, Determines o y s sel) := by
    intro m hm hm'
    rw [run_ok_prepared hm]
    constructor
    · rintro ⟨_, sel, _, h, -⟩; exact ⟨sel, h⟩
    · rintro ⟨sel, h⟩
      obtain ⟨llvm, s', h1, -⟩ := prepare_of (determines_effective.mpr h)
      refine ⟨llvm, sel, s', h, h1, ?_⟩
      rw [dispatch_eq (wants_effective.mpr hm)]
      rcases hm' with rfl | rfl <;> rfl
  rcases hm with h | h
  · exact key _ h (.inl rfl)
  · exact key _ h (.inr rfl)

theorem dirs_of_metadata {c : Ctx} (h : c.metadata (c.env.var c%"TEST_FUZZ_MANIFEST_PATH") ≠ none) (k t : Str) :
    (∃ d, corpusDirFromTarget c k t = .ok d) ∧ ∃ d, outputDirFromTarget c k t = .ok d := by
  obtain ⟨ws, hw⟩ := Option.ne_none_iff_exists'.mp h
  unfold corpusDirFromTarget outputDirFromTarget corpusDirectory outputDirectory targetDirectory assert
  rw [hw]
  exact ⟨⟨_, rfl⟩, ⟨_, rfl⟩⟩

theorem Spec.Linked.before_mono {y : Sys} (ha : OnlyAdds y) {llvm} {a b : FS} {steps : List GenStep} (h : Linked a steps b)
    (hf : ∀ x ∈ steps, x.Faithful y llvm) {p : Path} (hp : a p ≠ none) : ∀ x ∈ steps, x.before p ≠ none := by
  induction steps generalizing a with
  | nil => simp
  | cons x xs ih =>
    obtain ⟨rfl, h⟩ := h
    rw [List.forall_mem_cons]
    refine ⟨hp, ih h (fun z hz => hf z (List.mem_cons_of_mem _ hz)) ?_⟩
    have hx := hf x (by simp)
    by_cases hb : x.before x.corpus = none
    · obtain ⟨cmd, r, acts, -, -, -, -, -, e⟩ := hx.run hb
      have := ha acts cmd x.before p hp
      rwa [e] at this
    · rwa [(hx.idle hb).2]

/-- Missing corpora are no obstacle if they can be made. -/
theorem autoGenerate_supplied (y : Sys) (hy : Reliable y) (ha : OnlyAdds y) (llvm) (xs : List (Exe × Str)) (s : RSt)
    (hdir : y.ctx.metadata (y.ctx.env.var c%"TEST_FUZZ_MANIFEST_PATH") ≠ none) (h : Supplied y s.world.fs xs) :
    (autoGenerateCorpora y llvm xs s).1 = .ok () := by
  obtain ⟨steps, lines, h1, h2, h3, -, -, h4, -⟩ :=
    C21_generation y hy llvm xs (fun e t _ => (dirs_of_metadata hdir e.name t).1) s
  refine h4.mpr fun x hx => ?_
  rintro ⟨cmd, r, hr, hbad⟩
  have hf := h2 x hx
  have hmem : (x.exe, x.target) ∈ xs := by rw [← h1]; exact List.mem_map.mpr ⟨x, hx, rfl⟩
  have hnone : x.before x.corpus = none := by
    by_contra hn
    rw [(hf.idle hn).1] at hr
    cases hr
  rcases h _ hmem x.corpus hf.corpus_eq with hthere | hgen
  · exact h3.before_mono ha h2 hthere x hx hnone
  · obtain ⟨cmd', r', acts, e1, e2, e3, -, -, e4⟩ := hf.run hnone
    rw [hr] at e1
    cases e1
    obtain ⟨g1, g2⟩ := hgen acts cmd x.before e2 e3
    rw [e4] at g1 g2
    rcases hbad with hbad | hbad
    · exact hbad g1
    · exact g2 hbad

theorem fuzzCommand_of {o : Opts} {c : Ctx} (checks : Bool) (llvm cfg) (x : Exe × Str)
    (hdir : c.metadata (c.env.var c%"TEST_FUZZ_MANIFEST_PATH") ≠ none) (ht : ∀ t, o.timeout = some t → t * 1000 < 2 ^ 64) :
    ∃ cmd, fuzzCommand checks o c llvm cfg x.1 x.2 = .ok cmd ∧ cmd.program = c%"cargo" ∧ [c%"afl", c%"fuzz"] <+: cmd.args := by
  obtain ⟨⟨d, hd⟩, out, hout⟩ := dirs_of_metadata hdir x.1.name x.2
  have htm : ∃ t, timeoutArgs checks o = .ok t := by
    unfold timeoutArgs
    rcases e : o.timeout with _ | t
    · exact ⟨_, rfl⟩
    · have hm : mulU64 checks t millisPerSec = .ok (t * millisPerSec) := if_pos (ht t e)
      simp only [hm]
      exact ⟨_, rfl⟩
  obtain ⟨t, htm⟩ := htm
  have : ∃ cmd, fuzzCommand checks o c llvm cfg x.1 x.2 = .ok cmd := by
    unfold fuzzCommand
    rw [hd, hout, htm]
    exact ⟨_, rfl⟩
  obtain ⟨cmd, hc⟩ := this
  obtain ⟨corpus, out', t', -, -, -, h1, -, h2, -⟩ := fuzzCommand_ok hc
  exact ⟨cmd, hc, h1, by rw [h2]; exact List.prefix_append _ _⟩

theorem fuzzing_coverage {o : Opts} (h : Wants o .fuzzing) : o.coverage = none := by
  cases h with
  | fuzzing _ _ _ h =>
    unfold AsksReplay at h
    by_contra hc
    exact h (.inl hc)

/-- **C110 (fuzzing one target).** If the command finds out that it is to fuzz one target, the target has a corpus or can make
one, nothing is wrong with the disk, the timeout is not absurd, and the fuzzer ends well, then so does the command. -/
theorem C110_one (o : Opts) (hm : Wants o .fuzzing) (hx : o.exitCode = false) (y : Sys) (hy : Reliable y) (ha : OnlyAdds y)
    (hf : FuzzersSucceed y) (s : RSt) (sel) (h : Determines o y s sel) (x : Exe × Str) (hone : pairs sel = [x])
    (hsup : Supplied y (y.build s.world.fs).2 [x]) (ht : ∀ t, o.timeout = some t → t * 1000 < 2 ^ 64) :
    (run o y s).1 = .ok () := by
  rw [run_ok_prepared hm]
  have e0 : effectiveOpts o = o := by unfold effectiveOpts; rw [hx]; rfl
  obtain ⟨llvm, s1, h1, hw⟩ := prepare_of h
  refine ⟨llvm, sel, s1, h, by rw [e0]; exact h1, ?_⟩
  rw [e0, dispatch_eq hm]
  have hflat : flattenExecutableTargets o sel = .ok [x] := by
    unfold flattenExecutableTargets
    dsimp only
    rw [pairs_eq, hone]; rfl
  simp only [hflat, Rm.lift_ok_bind]
  have hgen := autoGenerate_supplied y hy ha llvm [x] s1 h.directory (by rw [hw]; exact hsup)
  rcases hg : autoGenerateCorpora y llvm [x] s1 with ⟨r, s2⟩
  rw [hg] at hgen
  dsimp only at hgen
  subst hgen
  obtain ⟨cmd, hcmd, hp, hargs⟩ := fuzzCommand_of y.checks llvm ⟨!o.noUi, true, true⟩ x h.directory ht
  have hio := fuzzCommandIO_reliable hy hcmd s2.world
  have hio' : ∃ s3, Rm.io y (fuzzCommandIO y.checks o y.ctx llvm ⟨!o.noUi, true, true⟩ x.1 x.2) s2 = (.ok cmd, s3) :=
    ⟨_, Prod.ext hio rfl⟩
  obtain ⟨s3, hio'⟩ := hio'
  unfold fuzz
  rw [fuzzing_coverage hm]
  simp only [Option.isNone_none, assert, if_true, Rm.lift_ok_bind]
  rw [Rm.bind_ok hg, hx]
  obtain ⟨exe, target⟩ := x
  simp only
  rw [Rm.bind_ok hio']
  have hres := hf s3.acts cmd s3.world.fs hp hargs
  rw [Rm.bind_def]
  simp only [Rm.command, hres]
  rfl

/-- **C110 (fuzzing several targets).** The same for the fuzzing loop: it is started if there are targets, each has a corpus or
can make one, there is a cpu, and `--max-total-time` is not combined with too few cpus; and the command ends as the loop does. -/
theorem C110_many (o : Opts) (hm : Wants o .fuzzing) (y : Sys) (hy : Reliable y) (ha : OnlyAdds y)
    (s : RSt) (sel) (h : Determines o y s sel) (hne : pairs sel ≠ [])
    (hmany : o.exitCode = true ∨ (pairs sel).length ≠ 1)
    (hsup : Supplied y (y.build s.world.fs).2 (pairs sel)) :
    let k := loopConfig o y ((pairs sel).map Prod.snd)
    1 ≤ k.nCpus → (k.nCpus < (pairs sel).length → o.maxTotalTime = none) →
    ((run o y s).1 = .ok () ↔ y.loop k = .ok ()) := by
  intro k hcpu hmax
  constructor
  · intro hok
    obtain ⟨messages, exes, ets, hb, he, hl, rfl⟩ := h.targets
    exact (C98_loop o hm y s exes ets (by rw [hb]; exact he) hl hmany hok).2.2.1
  intro hloop
  rw [run_ok_prepared hm]
  obtain ⟨llvm, s1, h1, hw⟩ := prepare_of (determines_effective.mpr h)
  refine ⟨llvm, sel, s1, h, h1, ?_⟩
  have ex : (effectiveOpts o).exitCode = o.exitCode := by unfold effectiveOpts; split <;> rfl
  have eu : (effectiveOpts o).noUi = (o.noUi || o.exitCode) := by
    unfold effectiveOpts; split <;> rename_i h <;> simp [h]
  have em : (effectiveOpts o).maxTotalTime = o.maxTotalTime := by unfold effectiveOpts; split <;> rfl
  have ec : cpusToUse (effectiveOpts o) y.numCpus = k.nCpus := by
    unfold cpusToUse effectiveOpts
    show _ = min (match o.cpus with | some n => n | none => y.numCpus - 1) y.numCpus
    split <;> cases o.cpus <;> rfl
  have ek : k = ⟨(pairs sel).map Prod.snd, cpusToUse (effectiveOpts o) y.numCpus, (effectiveOpts o).noUi,
      (effectiveOpts o).exitCode, y.vis⟩ := by rw [ec, ex, eu]; rfl
  have hm' := wants_effective.mpr hm
  rw [dispatch_eq hm']
  rw [← em] at hmax
  rw [← ex] at hmany
  clear_value k
  generalize effectiveOpts o = o' at *
  have hflat : flattenExecutableTargets o' sel = .ok (pairs sel) := by
    unfold flattenExecutableTargets ensure
    dsimp only
    rw [pairs_eq]
    rw [if_pos (by simpa using hne)]; rfl
  simp only [hflat, Rm.lift_ok_bind]
  have hgen := autoGenerate_supplied y hy ha llvm (pairs sel) s1 h.directory (by rw [hw]; exact hsup)
  rcases hg : autoGenerateCorpora y llvm (pairs sel) s1 with ⟨r, s2⟩
  rw [hg] at hgen
  dsimp only at hgen
  subst hgen
  have hset : fuzzSetup o' y.numCpus ((pairs sel).map Prod.snd) y.vis = .ok k := by
    unfold fuzzSetup ensure
    dsimp only
    rw [if_pos (by rw [ec]; simpa using hcpu), Out.ok_bind, ← ek]
    split
    · next hs =>
      have hlt : k.nCpus < (pairs sel).length := by
        by_contra hge
        have := (sufficient_iff k).mpr (by rw [ek] at hge ⊢; simpa using hge)
        simp [this] at hs
      rw [if_pos (by rw [hmax hlt]; rfl)]
      rfl
    · rfl
  have hfin : (fuzzMany o' y (pairs sel) s2).1 = .ok () := by
    unfold fuzzMany
    rw [hset, Rm.lift_ok_bind, Rm.bind_ok (Rm.act_run _ _)]
    exact hloop
  unfold fuzz
  rw [fuzzing_coverage hm']
  simp only [Option.isNone_none, assert, if_true, Rm.lift_ok_bind]
  rw [Rm.bind_ok hg]
  generalize pairs sel = ps at *
  rcases hx : o'.exitCode with _ | _
  · rw [hx] at hmany
    rcases ps with _ | ⟨a, _ | ⟨b, ps⟩⟩
    · exact hfin
    · simp at hmany
    · exact hfin
  · exact hfin

/-! ## Coverage, display, replay -/

/-- One directory of stored inputs. -/
theorem forEachEntry_succeeds (o : Opts) (ho : o.coverage.isSome ∨ o.display.isSome ∨ o.replay.isSome) (y : Sys)
    (hy : Reliable y) (hh : HarnessesRun y) (exe : Exe) (target : Str) (f : Flags) (dir : Path) (s : RSt)
    (hd : s.world.fs dir = some .dir) (hl : y.lister.Correct s.world.fs dir)
    (hsp : f.raw = false → ∀ n, Spared y (dir ++ [n])) (hfiles : f.raw = true → ∀ n, s.world.fs (dir ++ [n]) ≠ some .dir) :
    (forEachEntry o y exe target f dir s).1 = .ok () := by
  cases hr : f.raw with
  | false =>
    obtain ⟨_, _, _, -, h, -⟩ := C33_survives o ho y hy hh exe target f hr dir s hd hl (hsp hr)
    exact h
  | true =>
    unfold forEachEntry
    rw [Rm.bind_ok (pathExists_reliable hy dir s)]
    have hex : s.world.fs.exists dir = true := by simp [FS.exists, hd]
    rw [hex]
    simp only [ensure, if_true]
    rw [Rm.lift_ok_bind, Rm.bind_ok (readDir_reliable hy dir { s with world := ⟨s.world.fs, s.world.tick + 1⟩ } hd)]
    have hne : ∀ n ∈ y.lister s.world.fs dir, s.world.fs (dir ++ [n]) ≠ none := by
      intro n hn; rw [hl.2 n, Option.isSome_iff_ne_none] at hn; exact hn
    have hns : ∀ n ∈ y.lister s.world.fs dir, contents s.world.fs (dir ++ [n]) ≠ none := by
      intro n hn
      unfold contents
      rcases hc : s.world.fs (dir ++ [n]) with _ | _ | b
      · exact absurd hc (hne n hn)
      · simp_all
      · simp_all
    obtain ⟨se, hse⟩ := entriesLoop_raw (timeLimit o) y hy f hr (entryArgs target) exe.path s.world.fs dir _ hns {}
      { s with world := ⟨s.world.fs, s.world.tick + 1 + 1⟩ } rfl
    obtain ⟨-, l', -, -, -, -, k⟩ := entriesLoop_runs (timeLimit o) y hy f (entryArgs target) exe.path s.world.fs dir _ hne {} []
      ⟨by simp, by simp, by simp, by simp⟩ (.inl hr) { s with world := ⟨s.world.fs, s.world.tick + 1 + 1⟩ } fun _ => rfl
    obtain ⟨-, -, m3⟩ := k se hse
    generalize hw : entriesLoop (timeLimit o) y f (entryArgs target) exe.path dir (y.lister s.world.fs dir) {}
      { s with world := ⟨s.world.fs, s.world.tick + 1 + 1⟩ } = z at hse
    obtain ⟨z1, z2⟩ := z
    simp only at hse
    subst hse
    rw [Rm.bind_ok hw]
    obtain ⟨notes, c1, -⟩ := closing_says o ho se _ m3 z2
    rw [c1]

theorem replayLoop_succeeds (o : Opts) (ho : o.coverage.isSome ∨ o.display.isSome ∨ o.replay.isSome) (y : Sys)
    (hy : Reliable y) (hh : HarnessesRun y) (multiple raw : Bool) (dirs : Exe × Str → Path) (fs : FS) (flat : List (Exe × Str))
    (hd : ∀ x ∈ flat, ∃ f, chooseFlagsAndDir o y.ctx x.1.name x.2 = .ok (f, dirs x) ∧ f.raw = raw) (hne : ∀ x, dirs x ≠ [])
    (hl : ∀ x ∈ flat, fs (dirs x) = some .dir ∧ y.lister.Correct fs (dirs x))
    (hsp : raw = true ∨ ∀ x ∈ flat, Untouched y (dirs x))
    (hfiles : raw = true → ∀ x ∈ flat, ∀ n, fs (dirs x ++ [n]) ≠ some .dir)
    (hhead : multiple = true → ∀ x ∈ flat, headingText y x.2 ≠ .panic)
    (s : RSt) (hfs : ∀ x ∈ flat, SameAt y (dirs x) s.world.fs fs) :
    (replayLoop o y multiple flat s).1 = .ok () := by
  induction flat generalizing s with
  | nil => rfl
  | cons x flat ih =>
    obtain ⟨exe, target⟩ := x
    obtain ⟨f, hc, rfl⟩ := hd (exe, target) (by simp)
    have ih := ih (fun x hx => hd x (List.mem_cons_of_mem _ hx)) (fun x hx => hl x (List.mem_cons_of_mem _ hx))
      (hsp.imp_right fun h x hx => h x (List.mem_cons_of_mem _ hx)) (fun h x hx => hfiles h x (List.mem_cons_of_mem _ hx))
      (fun h x hx => hhead h x (List.mem_cons_of_mem _ hx))
    have h0 := hfs (exe, target) (by simp)
    obtain ⟨hdir, hcor⟩ := hl (exe, target) (by simp)
    unfold replayLoop
    have hhd : ∃ k, Rm.when multiple (printHeading y target) s = (.ok (), { s with acts := s.acts ++ k }) := by
      rcases printHeading_cases y target multiple s with hk1 | ⟨k, hk1, -⟩
      · exfalso
        cases multiple with
        | false => simp [Rm.when] at hk1
        | true =>
          rcases headingText_cases y target with h | ⟨d, h⟩
          · exact hhead rfl (exe, target) (by simp) h
          · simp only [Rm.when, if_true, printHeading, h, Rm.lift_ok_bind, Rm.act_run] at hk1
            cases hk1
      · exact ⟨k, hk1⟩
    obtain ⟨k, hk⟩ := hhd
    rw [Rm.bind_ok hk]
    simp only at hc
    rw [hc, Rm.lift_ok_bind]
    simp only
    have hok := forEachEntry_succeeds o ho y hy hh exe target f (dirs (exe, target)) { s with acts := s.acts ++ k }
      (h0.1.trans hdir) (h0.correct hcor)
      (fun hr n => by
        rcases hsp with h | h
        · rw [hr] at h; cases h
        · exact fun acts F => (h (exe, target) (by simp) acts F).2.2 n)
      (fun hr n => by
        show s.world.fs _ ≠ _
        rw [h0.2.2 n]; exact hfiles hr (exe, target) (by simp) n)
    obtain ⟨h1, -⟩ := forEachEntry_all o ho y hy exe target f (dirs (exe, target)) (hne _)
      { s with acts := s.acts ++ k } (fun _ => h0.correct hcor) (hsp.imp_right fun h => h (exe, target) (by simp))
    have hleft := forEachEntry_lefts o y exe target f (dirs (exe, target)) { s with acts := s.acts ++ k }
    rcases hr : forEachEntry o y exe target f (dirs (exe, target)) { s with acts := s.acts ++ k } with ⟨r, s'⟩
    rw [hr] at h1 hok hleft
    simp only at hok
    subst hok
    rw [Rm.bind_ok hr]
    refine ih s' fun x hx => ?_
    have hx := List.mem_cons_of_mem (exe, target) hx
    rcases hsp with hr | h
    · have := h1 hr
      simp only at this
      rw [this]; exact hfs x hx
    · exact (hleft.untouched (h x hx)).trans (hfs x hx)

theorem mustSucceed_of {y : Sys} {c : Cmd} {s : RSt} (h : (y.command s.acts c s.world.fs).1 = some true) :
    mustSucceed y c s = (.ok (), ⟨{ s.world with fs := (y.command s.acts c s.world.fs).2 }, s.acts ++ [.command c]⟩) := by
  refine Prod.ext ?_ (mustSucceed_state y c s)
  unfold mustSucceed
  rw [Rm.bind_def]
  simp only [Rm.command, h]
  rfl

/-- **C110 (coverage, display, replay).** If the command finds out which targets to work on, there is one, each has a directory
of the object asked for, nothing is wrong with the disk, harnesses can be started, killed and waited for, and the headings can
be made, then the command succeeds – whatever the harnesses say, and whether or not they hang. Harnesses are assumed to leave
these directories alone. If type names are displayed, their directories must contain files only. With coverage,
`cargo llvm-cov` has to succeed, and it must be possible to look for `lcov.info`. -/
theorem C110_replay (o : Opts) (ob : Object) (hm : Wants o .replaying) (ho : Chosen o ob) (y : Sys) (hy : Reliable y)
    (hh : HarnessesRun y) (root : Path) (hroot : targetDirectory y.ctx false false = .ok root) (hid : IdOk y.ctx) (s : RSt)
    (sel) (hdet : Determines o y s sel) (hne : pairs sel ≠ [])
    (hns : ∀ x ∈ pairs sel, NoSlash x.1.name ∧ NoSlash x.2)
    (hcov : o.coverage ≠ none → LlvmCovSucceeds y ∧ y.lcovExists ≠ none)
    (hhead : ∀ x ∈ pairs sel, headingText y x.2 ≠ .panic) :
    let dir := fun x : Exe × Str => root ++ objectPath (maybeId y.ctx) (qualified x) ob
    (∀ F, Prepared o y s F → ∀ x ∈ pairs sel, F (dir x) = some .dir ∧ y.lister.Correct F (dir x) ∧
      (TypeNames ob → ∀ n, F (dir x ++ [n]) ≠ some .dir)) →
    (TypeNames ob ∨ ∀ x ∈ pairs sel, Untouched y (dir x)) →
    (run o y s).1 = .ok () := by
  intro dir hdirs hsp
  have e5 : (effectiveOpts o).coverage = o.coverage := by unfold effectiveOpts; split <;> rfl
  rw [run_ok_prepared hm]
  obtain ⟨llvm, s1, h1, hw⟩ := prepare_of (determines_effective.mpr hdet)
  refine ⟨llvm, sel, s1, hdet, h1, ?_⟩
  have hm := wants_effective.mpr hm
  have ho := chosen_effective.mpr ho
  have hsome : (effectiveOpts o).coverage.isSome ∨ (effectiveOpts o).display.isSome ∨ (effectiveOpts o).replay.isSome := by
    rcases ho with h | ⟨-, h⟩ | ⟨-, -, h⟩ <;> simp [h]
  have hraw : ∀ x ∈ pairs sel, ∃ f, chooseFlagsAndDir (effectiveOpts o) y.ctx x.1.name x.2 = .ok (f, dir x) ∧
      f.raw = decide (TypeNames ob) := by
    intro x hx
    obtain ⟨e, t⟩ := x
    obtain ⟨h1, h2⟩ := hns _ hx
    obtain ⟨f, hf⟩ := C32_directory (effectiveOpts o) ob ho y.ctx root ⟨e.name, [], t, []⟩ e.name hroot hid h1 h2 rfl
    have hf' : chooseFlagsAndDir (effectiveOpts o) y.ctx e.name t = .ok (f, dir (e, t)) := hf
    refine ⟨f, hf', ?_⟩
    have hfd : flagsAndDir y.ctx ob e.name t = .ok (f, dir (e, t)) := by
      rw [← hf']
      unfold chooseFlagsAndDir
      rcases ho with h | ⟨h, h'⟩ | ⟨h, h', h''⟩
      · rw [h]
      · rw [h, h']
      · rw [h, h', h'']
    have := (C32_objects _ _ _ _ _ _ hfd).2
    rw [Bool.eq_iff_iff, this, decide_eq_true_iff]
  have hdne : ∀ x, dir x ≠ [] := by
    intro x h
    have := List.append_eq_nil_iff.mp h
    revert this
    cases ob <;> simp [objectPath]
  rw [← e5] at hcov
  have hprep : ∀ F, Prepared (effectiveOpts o) y s F → Prepared o y s F := by
    intro F h; unfold Prepared at h ⊢; rw [e5] at h; exact h
  rw [dispatch_eq hm]
  have hw' : s1.world.fs = (y.build s.world.fs).2 := by rw [hw]
  generalize effectiveOpts o = o' at *
  -- the data of earlier coverage runs
  have hclean : ∃ s2, Rm.when o'.coverage.isSome (coverageClean y llvm) s1 = (.ok (), s2) ∧ Prepared o y s s2.world.fs := by
    cases hc : o'.coverage with
    | none => exact ⟨s1, rfl, hprep _ (.inl hw')⟩
    | some b =>
      obtain ⟨k1, -⟩ := hcov (by rw [hc]; simp)
      simp only [Rm.when, Option.isSome_some, if_true]
      unfold coverageClean
      obtain ⟨cmd, hcmd, hp, ha⟩ : ∃ cmd, command llvm [c%"cargo", c%"llvm-cov", c%"clean", c%"--profraw-only"] = .ok cmd ∧
        cmd.program = c%"cargo" ∧ cmd.args = c%"llvm-cov" :: [c%"clean", c%"--profraw-only"] := ⟨_, rfl, rfl, rfl⟩
      rw [hcmd, Rm.lift_ok_bind]
      refine ⟨_, mustSucceed_of (k1 _ _ _ hp (by rw [ha]; rfl)), hprep _ (.inr ⟨s1.acts, cmd, _, by rw [hc]; simp, hp, ha, ?_⟩)⟩
      rw [hw']
  obtain ⟨s2, hclean, hF⟩ := hclean
  have hflat : flattenExecutableTargets o' sel = .ok (pairs sel) := by
    unfold flattenExecutableTargets ensure
    dsimp only
    rw [pairs_eq]
    rw [if_pos (by simpa using hne)]; rfl
  have hloop := replayLoop_succeeds o' hsome y hy hh (decide ((pairs sel).length > 1)) (decide (TypeNames ob)) dir s2.world.fs
    (pairs sel) hraw hdne (fun x hx => ⟨(hdirs _ hF x hx).1, (hdirs _ hF x hx).2.1⟩)
    (hsp.imp_left fun h => by simpa using h) (fun h x hx => (hdirs _ hF x hx).2.2 (by simpa using h))
    (fun _ => hhead) s2 (fun _ _ => ⟨rfl, rfl, fun _ => rfl⟩)
  unfold replayAll
  simp only
  rw [Rm.bind_ok hclean, hflat, Rm.lift_ok_bind]
  rcases hr : replayLoop o' y (decide ((pairs sel).length > 1)) (pairs sel) s2 with ⟨r, s3⟩
  rw [hr] at hloop
  simp only at hloop
  subst hloop
  rw [Rm.bind_ok hr]
  cases hc : o'.coverage with
  | none => rfl
  | some b =>
    obtain ⟨k1, k2⟩ := hcov (by rw [hc]; simp)
    simp only [Rm.when, Option.isSome_some, if_true]
    unfold coverageReport
    obtain ⟨ex, hex⟩ := Option.ne_none_iff_exists'.mp k2
    have hwarn : ∃ s4, coverageWarning y s3 = (.ok (), s4) := by
      unfold coverageWarning
      rw [hex]
      cases ex
      · exact ⟨_, rfl⟩
      · exact ⟨_, rfl⟩
    obtain ⟨s4, hwarn⟩ := hwarn
    rw [Rm.bind_ok hwarn]
    obtain ⟨cmd, hcmd, hp, ha⟩ : ∃ cmd, command llvm [c%"cargo", c%"llvm-cov", c%"report", c%"--lcov",
        c%"--output-path=lcov.info"] = .ok cmd ∧
      cmd.program = c%"cargo" ∧ cmd.args = c%"llvm-cov" :: [c%"report", c%"--lcov", c%"--output-path=lcov.info"] :=
        ⟨_, rfl, rfl, rfl⟩
    rw [hcmd, Rm.lift_ok_bind]
    refine congrArg Prod.fst (mustSucceed_of (k1 _ _ _ ?_ ?_))
    · exact hp
    · show (cmd.args ++ _).head? = _
      rw [ha]; rfl

/-! ## Consolidation, reset -/

theorem run_storing {o : Opts} (hm : Wants o .storing) (y : Sys) (s : RSt) (sel) (h : Determines o y s sel)
    (hst : ∀ o', o'.consolidate = o.consolidate → o'.consolidateAll = o.consolidateAll → o'.resetAll = o.resetAll →
      (storage o' y.ctx y.lister sel y.plan ⟨(y.build s.world.fs).2, s.world.tick⟩).1 = .ok ()) : (run o y s).1 = .ok () := by
  rw [run_ok_prepared hm]
  obtain ⟨llvm, s1, h1, hw⟩ := prepare_of (determines_effective.mpr h)
  refine ⟨llvm, sel, s1, h, h1, ?_⟩
  rw [dispatch_eq (wants_effective.mpr hm)]
  have hst := hst (effectiveOpts o) (by unfold effectiveOpts; split <;> rfl) (by unfold effectiveOpts; split <;> rfl)
    (by unfold effectiveOpts; split <;> rfl)
  simp only
  generalize effectiveOpts o = o' at *
  unfold storageAll
  have hk : ∃ k, Rm.when (wantsConsolidate o') (Rm.act (.consolidate sel)) s1 = (.ok (), { s1 with acts := s1.acts ++ k }) := by
    cases wantsConsolidate o'
    · exact ⟨[], by simp [Rm.when]⟩
    · exact ⟨_, rfl⟩
  obtain ⟨k, hk⟩ := hk
  rw [Rm.bind_ok hk, Rm.bind_ok (Rm.act_run _ _)]
  unfold Rm.io
  simp only [hw, hst]

/-- **C110 (consolidation).** If the command finds out which targets to work on, nothing is wrong with the disk, their crashes,
hangs and queue directories exist and hold only files, and their corpora can be made, then consolidation succeeds, provided there
is one target or all are meant. (That `--consolidate-all` alone is not enough for several targets is C31.) -/
theorem C110_consolidate (o : Opts) (hm : Wants o .storing) (ho : Consolidating o) (y : Sys) (hy : Reliable y)
    (hls : GoodLister y.lister) (s : RSt) (sel) (hdet : Determines o y s sel) (root : Path) (hsel : ValidSel y.ctx root sel)
    (hn : (o.consolidateAll = true ∧ o.resetAll = true) ∨ Single sel)
    (hcorp : ∀ x ∈ pairs sel, ∀ corp, dirOf y.ctx x.1.name x.2 .corpus = .ok corp →
      Creatable (y.build s.world.fs).2 corp ∧ ∀ name, (y.build s.world.fs).2 (corp ++ [name]) ≠ some .dir)
    (hout : ∀ x ∈ pairs sel, ∀ out, dirOf y.ctx x.1.name x.2 .output = .ok out →
      (y.build s.world.fs).2 out = some .dir ∧ Readable (y.build s.world.fs).2 out) :
    (run o y s).1 = .ok () := by
  have hpl : y.plan = Plan.clean := funext hy
  refine run_storing hm y s sel hdet fun o' h1 h2 h3 => ?_
  have ho' : Consolidating o' := by unfold Consolidating; rw [h1, h2, h3]; exact ho
  obtain ⟨w', h⟩ := C29_consolidate_succeeds o' ho' y.ctx y.lister hls root sel hsel (by rw [h2, h3]; exact hn)
    ⟨(y.build s.world.fs).2, s.world.tick⟩ hcorp hout
  rw [hpl, h]

/-- **C110 (reset).** Without consolidation, nothing more is needed than that the output directories are directories or
missing, and that there is one target or all are meant. -/
theorem C110_reset (o : Opts) (hm : Wants o .storing) (ho : ¬ Consolidating o) (y : Sys) (hy : Reliable y)
    (s : RSt) (sel) (hdet : Determines o y s sel) (root : Path) (hsel : ValidSel y.ctx root sel)
    (hn : o.resetAll = true ∨ Single sel)
    (hout : ∀ x ∈ pairs sel, ∀ out, dirOf y.ctx x.1.name x.2 .output = .ok out →
      (y.build s.world.fs).2 out = none ∨ (y.build s.world.fs).2 out = some .dir) :
    (run o y s).1 = .ok () := by
  have hpl : y.plan = Plan.clean := funext hy
  refine run_storing hm y s sel hdet fun o' h1 h2 h3 => ?_
  have hst : storage o' y.ctx y.lister sel = reset o' y.ctx sel := by
    unfold Consolidating at ho
    rw [← h1, ← h2, ← h3] at ho
    unfold storage
    cases ha : o'.consolidateAll <;> cases hr : o'.resetAll <;> cases hc : o'.consolidate <;> simp_all <;> rfl
  obtain ⟨w', h⟩ := C28_reset_succeeds o' y.ctx root sel hsel (by rw [h3]; exact hn)
    ⟨(y.build s.world.fs).2, s.world.tick⟩ hout
  rw [hst, hpl, h]

/-! ## Cases -/

namespace SucceedsDemo

open Demo

/-- As the system of `Demo`, but the test that generates a corpus for `b` makes a directory, and the fuzzing loop ends well. -/
def good : Sys := { sys3 with
  command := fun _ c fs => (some true, if c.args = [c%"--exact", c%"b_fuzz__::auto_generate"] then
    fun p => if p = corpus c%"b" then some .dir else fs p else fs)
  loop := fun _ => .ok () }

theorem good_suits : Suits (some v1) v1 := ⟨v1, rfl, fun _ => .inl ((C25_requirement _ _).mp (by decide +kernel))⟩

/-- For every selection of the two targets. -/
theorem good_determines (o : Opts) (F : FS) (h1 : o.coverage = none) (h2 : o.replay = none ∨ o.replay = some .corpus) :
    Determines o good ⟨⟨F, 0⟩, []⟩ (selectTargets o [(exe, [c%"a", c%"b"])]) := by
  refine ⟨by simp [h1], ?_, by decide +kernel, (fun h => nomatch h), fun h => absurd h1 h,
    ⟨_, [exe], _, rfl, by decide +kernel, by decide +kernel, rfl⟩, v1, by decide +kernel, ?_⟩
  · intro ob hob
    rcases h2 with h | h <;> rw [h] at hob <;> cases hob
    simp
  · intro x hx
    have hx : x.1 = exe := by
      unfold selectTargets at hx
      split at hx
      · unfold filterExecutableTargets at hx
        simp only [List.filterMap_cons, List.filterMap_nil] at hx
        split at hx
        · simp at hx
        · next h =>
          split at h
          · cases h
          · cases h
            simp only [List.mem_singleton] at hx
            rw [hx]
      · simp only [List.mem_singleton] at hx
        rw [hx]
    rw [hx]
    exact ⟨good_suits, good_suits⟩

theorem good_adds : OnlyAdds good := by
  intro acts c fs p h
  simp only [good]
  split
  · by_cases hp : p = corpus c%"b"
    · simp [hp]
    · simpa [hp] using h
  · exact h

theorem good_spared {p : Path} (h : p ≠ [c%"log"]) : Spared good p := fun _ _ => if_neg h

/-- `a` has a corpus, `b` can make one. -/
theorem good_supplied (l : List (Exe × Str)) (hl : ∀ x ∈ l, x = (exe, c%"a") ∨ x = (exe, c%"b")) :
    Supplied good Demo.fs l := by
  intro x hx d hd
  rcases hl x hx with rfl | rfl
  · have : corpusDirFromTarget good.ctx c%"p" c%"a" = .ok (corpus c%"a") := by decide +kernel
    have e : d = corpus c%"a" := by
      have := this.symm.trans hd
      cases this; rfl
    subst e
    exact .inl (by decide +kernel)
  · have : corpusDirFromTarget good.ctx c%"p" c%"b" = .ok (corpus c%"b") := by decide +kernel
    have e : d = corpus c%"b" := by
      have := this.symm.trans hd
      cases this; rfl
    subst e
    refine .inr fun acts cmd fs _ ha => ⟨rfl, ?_⟩
    have : cmd.args = [c%"--exact", c%"b_fuzz__::auto_generate"] := ha
    simp only [good, this, if_true]
    simp

end SucceedsDemo

open Demo SucceedsDemo

/-- C110_lists: the targets are listed. If the version of cargo-afl is unknown, or the build fails, they are not. -/
example : Wants { opts with list := true } .listing ∧ (∃ sel, Determines { opts with list := true } good start sel) ∧
    (run { opts with list := true } good start).1 = .ok () ∧
    (run { opts with list := true } { good with aflOutput := some c%"cargo-afl x" } start).1 = .panic ∧
    (run { opts with list := true } { good with build := fun fs => (.done [] (some false), fs) } start).1 ≠ .ok () ∧
    (run { opts with list := true } { good with build := fun fs => (.done [] (some true), fs) } start).1 = .ok () :=
  ⟨.listing rfl, ⟨_, good_determines _ _ rfl (.inl rfl)⟩, by decide +kernel, by decide +kernel, by decide +kernel, by decide +kernel⟩

/-- C110_one: fuzzing `b`, which has no corpus before. -/
example : (run { opts with ztarget := some c%"b" } good start).1 = .ok () :=
  C110_one _ (.fuzzing rfl rfl (by unfold AsksStorage; decide) (by unfold AsksReplay; decide)) rfl good (fun _ => rfl) good_adds
    (fun _ _ _ _ _ => rfl) start _ (good_determines _ _ rfl (.inl rfl)) (exe, c%"b") (by decide +kernel)
    (good_supplied _ (by simp)) (fun _ h => nomatch h)

/-- C110_many: fuzzing both. -/
example : (run opts good start).1 = .ok () :=
  (C110_many opts (.fuzzing rfl rfl (by unfold AsksStorage; decide) (by unfold AsksReplay; decide)) good (fun _ => rfl) good_adds
    start _ (good_determines _ _ rfl (.inl rfl)) (by decide +kernel) (.inr (by decide +kernel))
    (good_supplied _ (by
      intro x hx
      have : x ∈ [(exe, c%"a"), (exe, c%"b")] := hx
      simpa using this)) (by decide +kernel) (fun _ => rfl)).mpr rfl

/-- C110_replay: the corpora of both targets; one harness fails, the others hang. -/
example : (run { opts with replay := some .corpus } good ⟨⟨fs2, 0⟩, []⟩).1 = .ok () := by
  refine C110_replay _ .corpus (.replaying rfl rfl (by unfold AsksStorage; decide) (by unfold AsksReplay; decide))
    (.inr (.inr ⟨rfl, rfl, rfl⟩)) good (fun _ => rfl) ?_ [c%"t"] (by decide +kernel) ?_ ⟨⟨fs2, 0⟩, []⟩ _
    (good_determines _ _ rfl (.inr rfl)) (by decide +kernel) (by unfold NoSlash; decide +kernel) (fun h => absurd rfl h)
    (by decide +kernel) ?_ (.inr ?_)
  · intro acts
    by_cases h : acts.length = 4
    · exact ⟨_, _, _, if_pos h⟩
    · exact ⟨_, _, _, if_neg h⟩
  · intro id h
    rw [show maybeId good.ctx = none by decide +kernel] at h; cases h
  · rintro F (rfl | ⟨_, _, _, h, _⟩) x hx
    · have hx : x = (exe, c%"a") ∨ x = (exe, c%"b") := by
        simpa [selectTargets, pairs, opts] using hx
      rcases hx with rfl | rfl
      · exact ⟨by decide +kernel, sys2_lister c%"a" (by decide +kernel), fun h => absurd h (by unfold TypeNames; simp)⟩
      · exact ⟨by decide +kernel, sys2_lister c%"b" (by decide +kernel), fun h => absurd h (by unfold TypeNames; simp)⟩
    · exact absurd rfl h
  · intro x _ acts F
    exact ⟨good_spared (by simp [objectPath]) acts F, rfl, fun n => good_spared (by simp [objectPath]) acts F⟩

/-- C110_reset: all output directories. -/
example : (run { opts with resetAll := true } good start).1 = .ok () := by
  refine C110_reset _ (.storing rfl rfl (by unfold AsksStorage; decide)) (by unfold Consolidating; decide) good (fun _ => rfl)
    start _ (good_determines _ _ rfl (.inl rfl)) [c%"t"] ⟨by decide +kernel, ?_, ?_⟩ (.inl rfl) ?_
  · intro id h
    rw [show maybeId good.ctx = none by decide +kernel] at h; cases h
  · unfold NoSlash; decide +kernel
  · intro x hx out ho
    have hx : x = (exe, c%"a") ∨ x = (exe, c%"b") := by
      simpa [selectTargets, pairs, opts] using hx
    rcases hx with rfl | rfl
    · have e : dirOf good.ctx exe.name c%"a" .output = .ok [c%"t", c%"afl", c%"output", c%"p::a"] := by decide +kernel
      have := e.symm.trans ho
      cases this
      exact .inl (by decide +kernel)
    · have e : dirOf good.ctx exe.name c%"b" .output = .ok [c%"t", c%"afl", c%"output", c%"p::b"] := by decide +kernel
      have := e.symm.trans ho
      cases this
      exact .inl (by decide +kernel)

namespace SucceedsDemo

/-- How directories are listed does not matter before the targets are known. -/
theorem with_lister {o : Opts} {y : Sys} {s : RSt} {sel : List (Exe × List Str)} {ls : Lister} (h : Determines o y s sel) :
    Determines o { y with lister := ls } s sel := ⟨h.1, h.2, h.3, h.4, h.5, h.6, h.7⟩

def out : Path := [c%"t", c%"afl", c%"output", c%"p::b"]

/-- What a fuzzer has left: a crash, and two entries of the queue beside AFL's bookkeeping. There is no corpus yet. -/
def files : List (Path × Node) :=
  [([c%"t"], .dir), ([c%"t", c%"afl"], .dir), ([c%"t", c%"afl", c%"output"], .dir), (out, .dir), (out ++ [c%"default"], .dir),
   (out ++ [c%"default", c%"crashes"], .dir), (out ++ [c%"default", c%"hangs"], .dir), (out ++ [c%"default", c%"queue"], .dir),
   (out ++ [c%"default", c%"crashes", c%"id:0"], .file [1, 2]), (out ++ [c%"default", c%"queue", c%"id:0"], .file [1, 2]),
   (out ++ [c%"default", c%"queue", c%"id:1"], .file []), (out ++ [c%"default", c%"queue", c%".state"], .dir)]

def found : FS := fun p => files.lookup p

theorem found_mem {p : Path} {n : Node} (h : found p = some n) : (p, n) ∈ files := lookup_mem h

theorem found_readable : Readable found out := by
  intro sub hs
  refine ⟨?_, finiteDir_lookup _ _, fun name _ h2 h => ?_⟩
  · simp only [List.mem_cons, List.not_mem_nil, or_false] at hs
    rcases hs with rfl | rfl | rfl <;> decide +kernel
  · have hm := found_mem h
    have key : ∀ x ∈ files, x.2 = .dir → x.1.length = 7 → x.1.getLast? = some c%".state" := by decide +kernel
    have := key _ hm rfl (by simp [out])
    simp only [List.getLast?_append, List.getLast?_singleton, Option.some_or, Option.some.injEq] at this
    exact h2 this

end SucceedsDemo

/-- C110_consolidate: of `b`, for which a fuzzer has found something. -/
example : ∃ ls, GoodLister ls ∧
    (run { opts with consolidate := true, ztarget := some c%"b" } { good with lister := ls } ⟨⟨found, 0⟩, []⟩).1 = .ok () := by
  obtain ⟨ls, hls⟩ := exists_goodLister
  refine ⟨ls, hls, C110_consolidate _ (.storing rfl rfl (by unfold AsksStorage; decide)) (by unfold Consolidating; decide) _
    (fun _ => rfl) hls _ (selectTargets { opts with consolidate := true, ztarget := some c%"b" } [(exe, [c%"a", c%"b"])])
    (with_lister (good_determines _ _ rfl (.inl rfl))) [c%"t"] ⟨show targetDirectory good.ctx false false = _ by decide +kernel, ?_, ?_⟩
    (.inr ⟨exe, c%"b", by decide +kernel⟩) ?_ ?_⟩
  · intro id h
    rw [show maybeId good.ctx = none by decide +kernel] at h; cases h
  · unfold NoSlash; decide +kernel
  · intro x hx corp hc
    have e : pairs (selectTargets { opts with consolidate := true, ztarget := some c%"b" } [(exe, [c%"a", c%"b"])]) =
      [(exe, c%"b")] := by decide +kernel
    rw [e, List.mem_singleton] at hx
    subst hx
    have := (show dirOf good.ctx exe.name c%"b" .corpus = .ok (corpus c%"b") by decide +kernel).symm.trans hc
    cases this
    have key : ∀ x ∈ files, x.1 ≠ [c%"t"] → x.1.take 2 = [c%"t", c%"afl"] := by decide +kernel
    refine ⟨fun q b hq h => ?_, fun name h => ?_⟩
    · have hm := found_mem h
      have key2 : ∀ x ∈ files, x.2 ≠ .dir → x.1.length = 7 := by decide +kernel
      have h1 := key2 _ hm (fun h => nomatch h)
      have h2 := hq.length_le
      rw [h1] at h2
      exact absurd h2 (by decide)
    · have h : found (corpus c%"b" ++ [name]) = some .dir := h
      have := key _ (found_mem h) (by simp [corpus])
      simp [corpus] at this
  · intro x hx o ho
    have e : pairs (selectTargets { opts with consolidate := true, ztarget := some c%"b" } [(exe, [c%"a", c%"b"])]) =
      [(exe, c%"b")] := by decide +kernel
    rw [e, List.mem_singleton] at hx
    subst hx
    have := (show dirOf good.ctx exe.name c%"b" .output = .ok out by decide +kernel).symm.trans ho
    cases this
    exact ⟨show found out = some .dir by decide +kernel, found_readable⟩

end TF
