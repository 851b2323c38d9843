import Verif.Props.Cli
import Verif.Props.CommandEnv
import Verif.Props.RunListed

/-!
# Details of whole commands: complaints (C70), cpus (C34), the harness process (C23, C08)
-/

namespace TF

open Spec

/-! ## C70: complaints -/

theorem objectName_eq (ob : Object) : TF.objectName ob = Spec.objectName ob := by cases ob <;> rfl

/-- **C70.** A command line that asks for something that makes no sense is answered by quoting what was typed: the option
and its value, as given. -/
theorem C70_complaint (prog : Str) (args : List Str) (is : List Item) (z : List Str) (o : Opts) (hc : CommandLine is z args)
    (ha : Admissible is) (hm : Means is z o) (hv : ¬ ObjectsValid o) (y : Sys) (s : RSt) :
    ∃ k v, (k = .coverage ∨ k = .replay) ∧ .valued k v ∈ is ∧
      Cli.cargoTestFuzz (prog :: c%"test-fuzz" :: args) y s =
        (if o.exitCode then .exit 2 else .err (c%"`--" ++ valuedName k ++ c%" " ++ v ++ c%"` is invalid."), s) := by
  have hp := (Cli.C70_command_line prog args o (decide (.switch .noInstrumentation ∈ is))).mpr
    ⟨is, z, hc, ha, hm, decide_eq_true_iff⟩
  rw [Cli.C70_accepted_runs _ _ _ hp]
  have hv' : ¬ ObjectsValid (effectiveOpts o) := by
    unfold effectiveOpts; split <;> exact hv
  obtain ⟨flag, ob, h1, h2⟩ := C26_invalid_rejected (effectiveOpts o) y s hv'
  have hcov : (effectiveOpts o).coverage = o.coverage ∧ (effectiveOpts o).replay = o.replay := by
    unfold effectiveOpts; split <;> exact ⟨rfl, rfl⟩
  rw [hcov.1, hcov.2] at h1
  have hrun : run o y s = (if o.exitCode then .exit 2 else
      .err (c%"`--" ++ flag ++ c%" " ++ Spec.objectName ob ++ c%"` is invalid."), s) := by
    unfold run
    rw [h2, ← objectName_eq]
    dsimp only
    split <;> rfl
  rcases h1 with ⟨rfl, h1⟩ | ⟨rfl, h1⟩
  · have := hm.coverage
    rw [h1] at this
    obtain ⟨v, hv1, hv2⟩ := this
    refine ⟨.coverage, v, .inl rfl, hv1, ?_⟩
    rw [hrun, ← hv2]; rfl
  · have := hm.replay
    rw [h1] at this
    obtain ⟨v, hv1, hv2⟩ := this
    refine ⟨.replay, v, .inr rfl, hv1, ?_⟩
    rw [hrun, ← hv2]; rfl

/-- `cargo test-fuzz --replay generic-args`. -/
example (prog : Str) (y : Sys) (s : RSt) :
    Cli.cargoTestFuzz [prog, c%"test-fuzz", c%"--replay", c%"generic-args"] y s =
      (.err c%"`--replay generic-args` is invalid.", s) ∧ ¬ ObjectsValid { replay := some .genericArgs } := by
  refine ⟨?_, fun h => h.2 _ rfl trivial⟩
  have hp : Cli.parseFrom [prog, c%"test-fuzz", c%"--replay", c%"generic-args"] =
      .ok ({ replay := some .genericArgs, slice := 1200 }, false) := by
    rw [Cli.parseFrom, if_pos rfl]; decide +kernel
  obtain ⟨is, z, hc, ha, hm, -⟩ := (Cli.C70_command_line prog _ _ _).mp hp
  obtain ⟨k, v, hk, hv, h⟩ := C70_complaint prog _ is z _ hc ha hm (fun h => h.2 _ rfl trivial) y s
  rw [h]
  rcases hk with rfl | rfl
  · exact absurd hv (hm.coverage v)
  · obtain ⟨v', hv', e⟩ := hm.replay
    have := Cli.says_unique (R := Eq) ha (k := .replay) (by decide) (fun _ _ _ h1 h2 => h1.symm.trans h2)
      (x := some v) (y := some v') ⟨_, hv, rfl⟩ ⟨_, hv', rfl⟩
    cases this
    rw [e]; rfl

/-! ## C34: cpus -/

/-- **C34.** The fuzzing loop is set up with as many cpus as were asked for with `--cpus`, but not more than there are; with
one less than there are, if nothing was said. It is not entered with none; nor, if some targets have to wait for others,
with a limit on the total time. -/
theorem C34_cpus (o : Opts) (numCpus : Nat) (targets : List Str) (vis : Bytes → Nat) (k : FCfg) :
    fuzzSetup o numCpus targets vis = .ok k ↔
      k.targets = targets ∧ k.noUi = o.noUi ∧ k.exitCode = o.exitCode ∧ k.vis = vis ∧ 0 < k.nCpus ∧
      (∀ n, o.cpus = some n → (n ≤ numCpus ∧ k.nCpus = n) ∨ (numCpus < n ∧ k.nCpus = numCpus)) ∧
      (o.cpus = none → k.nCpus + 1 = numCpus) ∧
      (k.nCpus < targets.length → o.maxTotalTime = none) := by
  have hcpu : ∀ m : Nat, (0 < m ∧ m = cpusToUse o numCpus) ↔ 0 < m ∧
      (∀ n, o.cpus = some n → (n ≤ numCpus ∧ m = n) ∨ (numCpus < n ∧ m = numCpus)) ∧
      (o.cpus = none → m + 1 = numCpus) := by
    intro m
    unfold cpusToUse
    cases h : o.cpus with
    | none =>
      simp only [Option.getD_none, reduceCtorEq, false_implies, implies_true, true_and, forall_const]
      omega
    | some n =>
      simp only [Option.getD_some, Option.some.injEq, forall_eq', reduceCtorEq, false_implies, and_true]
      omega
  unfold fuzzSetup ensure FCfg.sufficient FCfg.n
  dsimp only
  obtain ⟨ts, nc, ui, ec, vi⟩ := k
  constructor
  · intro h
    split at h
    · rename_i h0
      rw [Out.ok_bind] at h
      have e : ts = targets ∧ nc = cpusToUse o numCpus ∧ ui = o.noUi ∧ ec = o.exitCode ∧ vi = vis ∧
          (nc < targets.length → o.maxTotalTime = none) := by
        split at h
        · split at h
          · rename_i h2
            rw [Out.ok_bind] at h
            cases h
            exact ⟨rfl, rfl, rfl, rfl, rfl, fun _ => Option.isNone_iff_eq_none.mp h2⟩
          · cases h
        · rename_i h1
          cases h
          exact ⟨rfl, rfl, rfl, rfl, rfl, fun hn => absurd hn (by simpa using h1)⟩
      obtain ⟨rfl, hn, rfl, rfl, rfl, ht⟩ := e
      have h0 : 0 < nc := by rw [hn]; exact of_decide_eq_true h0
      obtain ⟨h1, h2, h3⟩ := (hcpu nc).mp ⟨h0, hn⟩
      exact ⟨rfl, rfl, rfl, rfl, h1, h2, h3, ht⟩
    · cases h
  · rintro ⟨rfl, rfl, rfl, rfl, h1, h2, h3, ht⟩
    obtain ⟨-, rfl⟩ := (hcpu nc).mpr ⟨h1, h2, h3⟩
    rw [if_pos (decide_eq_true (show cpusToUse o numCpus ≥ 1 from h1)), Out.ok_bind]
    split
    · rename_i hs
      rw [if_pos (Option.isNone_iff_eq_none.mpr (ht (by simpa using hs))), Out.ok_bind]
    · rfl

/-- Eight cpus: seven are used for three targets. Two, if asked for; then no `--max-total-time`. -/
example (vis : Bytes → Nat) :
    fuzzSetup { maxTotalTime := some 60 } 8 [c%"a", c%"b", c%"d"] vis = .ok ⟨[c%"a", c%"b", c%"d"], 7, false, false, vis⟩ ∧
    fuzzSetup { cpus := some 2 } 8 [c%"a", c%"b", c%"d"] vis = .ok ⟨[c%"a", c%"b", c%"d"], 2, false, false, vis⟩ ∧
    (∀ k, fuzzSetup { cpus := some 2, maxTotalTime := some 60 } 8 [c%"a", c%"b", c%"d"] vis ≠ .ok k) := by
  refine ⟨rfl, rfl, fun k h => ?_⟩
  have h := (C34_cpus _ _ _ _ k).mp h
  have hn : k.nCpus = 2 := by
    rcases h.2.2.2.2.2.1 2 rfl with h | h <;> omega
  have := h.2.2.2.2.2.2.2 (by rw [hn]; decide)
  cases this

/-! ## C23: the process that runs a harness -/

namespace Spec

/-- What is set for a harness that is run on an input. -/
def harnessVar (o : Opts) (k : Str) : Option Str :=
  if k = c%"TEST_FUZZ_PRETTY_PRINT" ∧ o.pretty = true then some c%"1"
  else if k = c%"RUST_BACKTRACE" ∧ o.backtrace = true then some c%"1"
  else if k = c%"TEST_FUZZ_REPLAY" ∧ o.replay.isSome then some c%"1"
  else if k = c%"TEST_FUZZ_DISPLAY" ∧ o.display.isSome then some c%"1"
  else if k = c%"TEST_FUZZ_COVERAGE" ∧ o.coverage.isSome then some c%"1"
  else if k = c%"AFL_QUIET" then some c%"1"
  else if k = c%"TEST_FUZZ_WRITE" then some c%"0"
  else if k = c%"TEST_FUZZ" then some c%"1"
  else none

end Spec

theorem setAll_append (e : Env) : ∀ a b : List (Str × Str), e.setAll (a ++ b) = (e.setAll a).setAll b
  | [], _ => rfl
  | (_, _) :: a, b => setAll_append _ a b

theorem setAll_if (e : Env) (b : Bool) (k v : Str) :
    e.setAll (if b then [(k, v)] else []) = fun x => if x = k ∧ b then some (.utf8 v) else e x := by
  cases b
  · simp [Env.setAll]
  · simp [Env.setAll]; rfl

/-- **C23.** The harness is the test of that exact name in the executable; nothing else is passed to it than that output
is not to be captured. Its environment is that of the command except for what is listed by `harnessVar`: in
particular a switch that the user has set, and that is not set here, has its effect on the harness. -/
theorem C23_harness_process (o : Opts) (parent : Env) (llvm : List (Str × Str))
    (listing : Cmd → List (Str × Option Str)) (exe : Exe) (target : Str) (e : Exec)
    (h : entryExec o parent llvm listing exe target = .ok e) :
    e.program = exe.path ∧ e.args = [c%"--exact", target ++ c%"_fuzz__::entry", c%"--nocapture"] ∧
    ∃ cmd, command llvm [exe.path] = .ok cmd ∧ e.cwd = cmd.cwd ∧
      ∀ k, e.env k = match harnessVar o k with
        | some v => some (.utf8 v)
        | none => (listing cmd).foldl Env.apply parent k := by
  unfold entryExec at h
  cases hc : command llvm [exe.path] with
  | ok cmd =>
    rw [hc, Out.ok_bind] at h
    cases h
    have hcmd : cmd.program = exe.path ∧ cmd.args = [] := by
      simp only [command] at hc
      cases hc
      exact ⟨rfl, rfl⟩
    refine ⟨hcmd.1, ?_, cmd, rfl, rfl, fun k => ?_⟩
    · simp only [Exec.addArgs, Exec.envExtend, toExec, hcmd.2]; rfl
    · simp only [Exec.addArgs, Exec.envExtend, toExec]
      generalize (listing cmd).foldl Env.apply parent = E
      unfold entryEnvs baseEnvs
      simp only [setAll_append, setAll_if, Env.setAll, Env.set]
      unfold harnessVar
      repeat (split; · rfl)
      rfl
  | _ => rw [hc] at h; cases h

/-- With `--replay`, after the user has set `TEST_FUZZ_WRITE` and `TEST_FUZZ_DISPLAY`: the former is overridden, the latter
is inherited. -/
example : ∃ e, entryExec { replay := some .corpus } (fun _ => some (.utf8 c%"1")) [] (fun c => c.envs)
      ⟨c%"/x", c%"x", none, none⟩ c%"m::t" = .ok e ∧
    e.args = [c%"--exact", c%"m::t_fuzz__::entry", c%"--nocapture"] ∧ e.env c%"TEST_FUZZ_WRITE" = some (.utf8 c%"0") ∧
    e.env c%"TEST_FUZZ_DISPLAY" = some (.utf8 c%"1") := ⟨_, rfl, rfl, by decide +kernel, by decide +kernel⟩

/-! ## C41: the loop -/

namespace Spec

/-- The iteration is the last one, with this result. -/
inductive LastOne : Out Next → Out FState → Prop
  | done (s : FState) : LastOne (.ok (.done s)) (.ok s)
  | err (e : Str) : LastOne (.err e) (.err e)
  | panic : LastOne .panic .panic
  | exit (c : Nat) : LastOne (.exit c) (.exit c)
  | crash : LastOne .crash .crash

end Spec

/-- **C41.** The fuzzing loop is its iterations, one after the other, each with what the environment does at that time,
up to the first that does not go on. So the states at the beginnings of its iterations are those of `Reach`, about which
the properties of the loop speak. -/
theorem C41_loop_iterates (k : FCfg) (inp : Nat → Inp) (r : Out FState) : ∀ (fuel t : Nat) (s : FState),
    fuzzLoop k inp fuel t s = some r ↔ ∃ (n : Nat) (st : Nat → FState), n < fuel ∧ st 0 = s ∧
      (∀ i < n, iterate k (inp (t + i)) (st i) = .ok (.cont (st (i + 1)))) ∧ LastOne (iterate k (inp (t + n)) (st n)) r
  | 0, t, s => by simp [fuzzLoop]
  | fuel + 1, t, s => by
    have here : ∀ x, iterate k (inp t) s = x → (∀ s', x ≠ .ok (.cont s')) → LastOne x r → ∃ (n : Nat) (st : Nat → FState), n < fuel + 1 ∧ st 0 = s ∧
        (∀ i < n, iterate k (inp (t + i)) (st i) = .ok (.cont (st (i + 1)))) ∧ LastOne (iterate k (inp (t + n)) (st n)) r :=
      fun x hx _ hl => ⟨0, fun _ => s, by omega, rfl, by simp, hx ▸ hl⟩
    have there : ∀ x, iterate k (inp t) s = x → (∀ s', x ≠ .ok (.cont s')) → (∃ (n : Nat) (st : Nat → FState), n < fuel + 1 ∧ st 0 = s ∧
        (∀ i < n, iterate k (inp (t + i)) (st i) = .ok (.cont (st (i + 1)))) ∧
        LastOne (iterate k (inp (t + n)) (st n)) r) → LastOne x r := by
      rintro x hx hn ⟨n, st, -, rfl, h1, h2⟩
      cases n with
      | zero => exact hx ▸ h2
      | succ n => exact absurd (hx.symm.trans (h1 0 (by omega))) (hn _)
    rw [fuzzLoop.eq_def]
    dsimp only
    split
    · next s' hc =>
      rw [C41_loop_iterates k inp r fuel (t + 1) s']
      constructor
      · rintro ⟨n, st, hn, rfl, h1, h2⟩
        refine ⟨n + 1, fun i => match i with | 0 => s | i + 1 => st i, by omega, rfl, ?_, ?_⟩
        · rintro (_ | i) hi
          · exact hc
          · have := h1 i (by omega)
            rwa [show t + 1 + i = t + (i + 1) by omega] at this
        · rwa [show t + 1 + n = t + (n + 1) by omega] at h2
      · rintro ⟨n, st, hn, rfl, h1, h2⟩
        cases n with
        | zero => rw [show t + 0 = t from rfl, hc] at h2; cases h2
        | succ n =>
          have h0 := h1 0 (by omega)
          rw [show t + 0 = t from rfl, hc] at h0
          simp only [Out.ok.injEq, Next.cont.injEq] at h0
          refine ⟨n, fun i => st (i + 1), by omega, h0.symm, fun i hi => ?_, ?_⟩
          · have := h1 (i + 1) (by omega)
            rwa [show t + (i + 1) = t + 1 + i by omega] at this
          · rwa [show t + (n + 1) = t + 1 + n by omega] at h2
    all_goals
      next hc =>
      constructor
      · rintro ⟨⟩
        exact here _ hc (by simp) (by constructor)
      · intro h
        have := there _ hc (by simp) h
        cases this; rfl

/-- **C41.** `Reach` is what the iterations lead to. -/
theorem C41_reach (k : FCfg) (s : FState) : Reach k s ↔ ∃ (inp : Nat → Inp) (n : Nat) (st : Nat → FState), st 0 = FState.init k ∧
    (∀ i < n, iterate k (inp i) (st i) = .ok (.cont (st (i + 1)))) ∧ st n = s := by
  constructor
  · intro h
    induction h with
    | init => exact ⟨fun _ => ⟨none, false, none⟩, 0, fun _ => FState.init k, rfl, by simp, rfl⟩
    | @step s s' x _ hi ih =>
      obtain ⟨inp, n, st, h0, h1, rfl⟩ := ih
      refine ⟨fun i => if i = n then x else inp i, n + 1, fun i => if i = n + 1 then s' else st i, ?_, ?_, by simp⟩
      · simpa using h0
      · intro i hi'
        by_cases e : i = n
        · subst e; simpa using hi
        · have := h1 i (by omega)
          simpa [e, show ¬ i = n + 1 by omega] using this
  · rintro ⟨inp, n, st, h0, h1, rfl⟩
    induction n with
    | zero => rw [h0]; exact .init
    | succ n ih => exact .step (ih fun i hi => h1 i (by omega)) (h1 n (by omega))

/-- One target, whose fuzzer cannot be started: the loop ends in its first iteration. -/
example : ∃ e, fuzzLoop ⟨[c%"a"], 1, true, false, fun _ => 0⟩ (fun _ => ⟨none, false, none⟩) 5 0
    (FState.init ⟨[c%"a"], 1, true, false, fun _ => 0⟩) = some (.err e) := ⟨_, rfl⟩

end TF
