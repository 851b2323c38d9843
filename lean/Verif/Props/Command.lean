import Verif.Spec.Command
import Verif.Spec.Selection
import Verif.Props.Naming
import Verif.Props.Selection
import Verif.Props.Run
import Verif.Props.FuzzSched

/-! # The commands that are run: C08, C23, C39, C46, C47, C60, C61, C64 -/

namespace TF

open Spec

/-! ## Numbers -/

theorem natStr_denotes (n : Nat) : Denotes (natStr n) n := by
  refine ⟨Nat.toDigits_ne_nil, fun c h => Nat.isDigit_of_mem_toDigits (by decide) (by decide) h, ?_⟩
  have := Nat.ofDigitChars_ten_toDigits (n := n)
  rw [Nat.ofDigitChars_eq_foldl] at this
  exact this

theorem Spec.Denotes.unique {s : Str} {m n : Nat} (h : Denotes s m) (h' : Denotes s n) : m = n :=
  h.2.2.symm.trans h'.2.2

/-! ## Environments -/

theorem foldl_apply_other (l : List (Str × Option Str)) (e : Env) (k : Str) (h : ∀ x ∈ l, x.1 ≠ k) :
    l.foldl Env.apply e k = e k := by
  induction l generalizing e with
  | nil => rfl
  | cons x l ih =>
    rw [List.foldl_cons, ih _ fun z hz => h z (List.mem_cons_of_mem _ hz)]
    have := h x List.mem_cons_self
    obtain ⟨a, _ | v⟩ := x
    · exact if_neg fun hh => this hh.symm
    · exact if_neg fun hh => this hh.symm

theorem foldl_apply_last (l : List (Str × Option Str)) (e : Env) (k : Str) (v : Option Str) (h : LastChange l k v) :
    l.foldl Env.apply e k = v.map OsVal.utf8 := by
  obtain ⟨pre, post, rfl, hp⟩ := h
  rw [List.foldl_append, List.foldl_cons, foldl_apply_other _ _ _ hp]
  cases v <;> exact if_pos rfl

theorem exists_lastChange {l : List (Str × Option Str)} {x : Str × Option Str} (h : x ∈ l) :
    ∃ v, LastChange l x.1 v := by
  suffices H : ∀ k, (∃ z ∈ l, z.1 = k) → ∃ v, LastChange l k v from H _ ⟨x, h, rfl⟩
  clear h
  intro k hk
  induction l with
  | nil => obtain ⟨z, hz, -⟩ := hk; cases hz
  | cons z l ih =>
    by_cases hz : ∃ w ∈ l, w.1 = k
    · obtain ⟨v, pre, post, rfl, hp⟩ := ih hz
      exact ⟨v, z :: pre, post, rfl, hp⟩
    · obtain ⟨w, hw, rfl⟩ := hk
      rcases List.mem_cons.mp hw with rfl | hw
      · exact ⟨w.2, [], l, rfl, fun x hx he => hz ⟨x, hx, he⟩⟩
      · exact absurd ⟨w, hw, rfl⟩ hz

theorem lastChange_of_nodup {l : List (Str × Option Str)} (hn : (l.map Prod.fst).Nodup) {k : Str} {v : Option Str}
    (h : (k, v) ∈ l) : LastChange l k v := by
  obtain ⟨pre, post, rfl⟩ := List.append_of_mem h
  refine ⟨pre, post, rfl, fun x hx he => ?_⟩
  rw [List.map_append, List.map_cons, List.nodup_append] at hn
  exact (List.nodup_cons.mp hn.2.1).1 (List.mem_map.mpr ⟨x, hx, he⟩)

theorem setAll_eq (e : Env) (l : List (Str × Str)) : e.setAll l = (l.map fun x => (x.1, some x.2)).foldl Env.apply e := by
  induction l generalizing e with
  | nil => rfl
  | cons x l ih => exact ih _

/-! ## C47 -/

theorem mulU64_small (checks : Bool) {a b : Nat} (h : a * b < 2 ^ 64) : mulU64 checks a b = .ok (a * b) := by
  unfold mulU64; rw [if_pos h]

theorem mulU64_large (checks : Bool) {a b : Nat} (h : ¬ a * b < 2 ^ 64) :
    mulU64 checks a b = if checks then .panic else .ok (a * b % 2 ^ 64) := by
  unfold mulU64; rw [if_neg h]

/-- The timeout is passed in milliseconds as long as the product fits in 64 bits. -/
theorem C47_milliseconds (checks : Bool) (o : Opts) (t : Nat) (ho : o.timeout = some t) (h : t * 1000 < 2 ^ 64) :
    ∃ v, timeoutArgs checks o = .ok [c%"-t", v] ∧ Denotes v (1000 * t) := by
  refine ⟨natStr (t * 1000), ?_, Nat.mul_comm t 1000 ▸ natStr_denotes _⟩
  simp only [timeoutArgs, ho, millisPerSec, mulU64_small checks h, Out.ok_bind]

/-- If the product does not fit, the program panics if arithmetic is checked and else passes a wrong value. -/
theorem C47_overflow (checks : Bool) (o : Opts) (t : Nat) (ho : o.timeout = some t) (h : 2 ^ 64 ≤ t * 1000) :
    (checks = true → timeoutArgs checks o = .panic) ∧
    (checks = false → ∃ v, timeoutArgs checks o = .ok [c%"-t", v] ∧ ¬ Denotes v (1000 * t)) := by
  have hn : ¬ t * 1000 < 2 ^ 64 := by omega
  constructor
  · rintro rfl
    simp only [timeoutArgs, ho, millisPerSec, mulU64_large _ hn, if_true]
    rfl
  · rintro rfl
    refine ⟨natStr (t * 1000 % 2 ^ 64), ?_, fun hd => ?_⟩
    · simp only [timeoutArgs, ho, millisPerSec, mulU64_large _ hn, Bool.false_eq_true, if_false, Out.ok_bind]
    · have h1 := hd.unique (natStr_denotes _)
      have h2 : t * 1000 % 2 ^ 64 < 2 ^ 64 := Nat.mod_lt _ (by decide)
      omega

/-- The greatest timeout that works, and the least that does not. -/
example : timeoutArgs true { timeout := some 18446744073709551 } = .ok [c%"-t", c%"18446744073709551000"] ∧
    timeoutArgs true { timeout := some 18446744073709552 } = .panic ∧
    timeoutArgs false { timeout := some 18446744073709552 } = .ok [c%"-t", c%"384"] := by decide +kernel

/-! ## C46 -/

theorem timeoutArgs_ok {checks : Bool} {o : Opts} {l : List Str} (h : timeoutArgs checks o = .ok l)
    (hb : ∀ t, o.timeout = some t → t * 1000 < 2 ^ 64) :
    l = match o.timeout with | some t => [c%"-t", natStr (t * 1000)] | none => [] := by
  cases ho : o.timeout with
  | none => simp only [timeoutArgs, ho] at h; cases h; rfl
  | some t =>
    simp only [timeoutArgs, ho, millisPerSec, mulU64_small checks (hb t ho), Out.ok_bind] at h
    cases h; rfl

theorem fuzzCommand_ok {checks : Bool} {o : Opts} {c : Ctx} {llvm : List (Str × Str)} {cfg : Config} {exe : Exe}
    {target : Str} {cmd : Cmd} (h : fuzzCommand checks o c llvm cfg exe target = .ok cmd) :
    ∃ corpus out t, corpusDirFromTarget c exe.name target = .ok corpus ∧
      outputDirFromTarget c exe.name target = .ok out ∧ timeoutArgs checks o = .ok t ∧
      cmd.program = c%"cargo" ∧ cmd.cwd = none ∧
      cmd.args = [c%"afl", c%"fuzz"] ++ ([c%"-c-", c%"-i", (if o.resume || !cfg.firstRun then c%"-" else pathStr corpus),
        c%"-o", pathStr out, c%"-M", c%"default"] ++ timeBoundArgs o cfg ++ t ++ o.zzargs ++
        [c%"--", exe.path, c%"--exact", target ++ entrySuffix]) ∧
      cmd.envs = llvm.map (fun x => (x.1, some x.2)) ++ (baseEnvs ++ (if !cfg.ui then [(c%"AFL_NO_UI", c%"1")] else []) ++
        (if o.runUntilCrash then [(c%"AFL_BENCH_UNTIL_CRASH", c%"1")] else [])).map (fun x => (x.1, some x.2)) := by
  unfold fuzzCommand at h
  cases h1 : corpusDirFromTarget c exe.name target with
  | ok corpus =>
    rw [h1, Out.ok_bind] at h
    cases h2 : outputDirFromTarget c exe.name target with
    | ok out =>
      rw [h2, Out.ok_bind] at h
      cases h3 : timeoutArgs checks o with
      | ok t =>
        rw [h3, Out.ok_bind] at h
        simp only [command, Out.ok_bind] at h
        cases h
        exact ⟨corpus, out, t, rfl, rfl, rfl, rfl, rfl, rfl, rfl⟩
      | _ => rw [h3] at h; cases h
    | _ => rw [h2] at h; cases h
  | _ => rw [h1] at h; cases h

theorem fuzzCommandIO_ok {checks : Bool} {o : Opts} {c : Ctx} {llvm : List (Str × Str)} {cfg : Config} {exe : Exe}
    {target : Str} {cmd : Cmd} {pl : Plan} {w : World}
    (h : (fuzzCommandIO checks o c llvm cfg exe target pl w).1 = .ok cmd) :
    fuzzCommand checks o c llvm cfg exe target = .ok cmd := by
  unfold fuzzCommandIO at h
  cases h1 : outputDirFromTarget c exe.name target with
  | ok out =>
    rw [h1] at h
    simp only [Bind.bind, IOm.bind, IOm.lift] at h
    split at h
    all_goals first | (cases h; done) | exact h
  | _ => rw [h1] at h; cases h

/-- The fuzzer's command line. -/
theorem C46_command_line (checks : Bool) (o : Opts) (c : Ctx) (llvm : List (Str × Str)) (cfg : Config) (exe : Exe)
    (target : Str) (cmd : Cmd) (h : fuzzCommand checks o c llvm cfg exe target = .ok cmd)
    (hb : ∀ t, o.timeout = some t → t * 1000 < 2 ^ 64) :
    ∃ (corpus out : Path) (opts : List (Str × Str)), corpusDirFromTarget c exe.name target = .ok corpus ∧
      outputDirFromTarget c exe.name target = .ok out ∧ cmd.program = c%"cargo" ∧
      cmd.args = [c%"afl", c%"fuzz", c%"-c-"] ++ opts.flatMap (fun x => [x.1, x.2]) ++ o.zzargs ++
        [c%"--", exe.path, c%"--exact", target ++ c%"_fuzz__::entry"] ∧
      (opts.map Prod.fst).Nodup ∧
      (∀ x ∈ opts, FuzzerOption o corpus out (!o.resume && cfg.firstRun) cfg.sufficientCpus x.1 x.2) ∧
      ∀ k v, FuzzerOption o corpus out (!o.resume && cfg.firstRun) cfg.sufficientCpus k v →
        ∃ v', (k, v') ∈ opts := by
  obtain ⟨corpus, out, t, h1, h2, h3, hp, -, ha, -⟩ := fuzzCommand_ok h
  have ht := timeoutArgs_ok h3 hb
  refine ⟨corpus, out,
    [(c%"-i", if o.resume || !cfg.firstRun then c%"-" else pathStr corpus), (c%"-o", pathStr out),
      (c%"-M", c%"default")] ++
    (if !cfg.sufficientCpus then [(c%"-V", natStr o.slice)]
      else match o.maxTotalTime with | some t => [(c%"-V", natStr t)] | none => []) ++
    (match o.timeout with | some t => [(c%"-t", natStr (t * 1000))] | none => []), h1, h2, hp, ?_, ?_, ?_, ?_⟩
  · rw [ha, ht]
    unfold timeBoundArgs
    rcases o.timeout with _ | t <;> rcases o.maxTotalTime with _ | m <;> cases cfg.sufficientCpus <;> rfl
  · rcases o.timeout with _ | t <;> rcases o.maxTotalTime with _ | m <;> cases cfg.sufficientCpus <;>
      (simp only [Bool.not_true, Bool.not_false, if_true, Bool.false_eq_true, if_false, List.map_append, List.map_cons, List.map_nil]; decide)
  · intro x hx
    simp only [List.mem_append, List.mem_cons, List.not_mem_nil, or_false] at hx
    rcases hx with ((rfl | rfl | rfl) | hx) | hx
    · dsimp only
      cases hr : o.resume <;> cases hf : cfg.firstRun
      · exact .session rfl
      · exact .corpus rfl
      · exact .session rfl
      · exact .session rfl
    · exact .output
    · exact .name
    · split at hx
      · next hs =>
        rw [List.mem_singleton] at hx; subst hx
        exact .slice (by simpa using hs) (natStr_denotes _)
      · next hs =>
        split at hx
        · next t hm =>
          rw [List.mem_singleton] at hx; subst hx
          exact .total (by simpa using hs) hm (natStr_denotes _)
        · cases hx
    · split at hx
      · next t hm =>
        rw [List.mem_singleton] at hx; subst hx
        exact .timeout hm (Nat.mul_comm t 1000 ▸ natStr_denotes _)
      · cases hx
  · intro k v hk
    cases hk with
    | corpus _ => exact ⟨_, by simp; exact Or.inl rfl⟩
    | session _ => exact ⟨_, by simp; exact Or.inl rfl⟩
    | output => exact ⟨_, List.mem_append_left _ (List.mem_append_left _ (List.mem_cons_of_mem _ List.mem_cons_self))⟩
    | name => exact ⟨_, List.mem_append_left _ (List.mem_append_left _ (List.mem_cons_of_mem _ (List.mem_cons_of_mem _ List.mem_cons_self)))⟩
    | slice h _ => exact ⟨_, List.mem_append_left _ (List.mem_append_right _ (by rw [h]; exact List.mem_cons_self))⟩
    | total h hm _ =>
      exact ⟨_, List.mem_append_left _ (List.mem_append_right _ (by rw [h, hm]; exact List.mem_cons_self))⟩
    | timeout hm _ => exact ⟨_, List.mem_append_right _ (by rw [hm]; exact List.mem_cons_self)⟩

/-- The environment of the fuzzer: no user interface exactly as configured, stop at the first crash if asked to. -/
theorem C46_environment (checks : Bool) (o : Opts) (c : Ctx) (llvm : List (Str × Str)) (cfg : Config) (exe : Exe)
    (target : Str) (cmd : Cmd) (h : fuzzCommand checks o c llvm cfg exe target = .ok cmd) (parent : Env)
    (hl : ∀ x ∈ llvm, x.1 ≠ c%"AFL_NO_UI" ∧ x.1 ≠ c%"AFL_BENCH_UNTIL_CRASH") :
    cmd.childEnv parent c%"AFL_NO_UI" = (if cfg.ui then parent c%"AFL_NO_UI" else some (.utf8 c%"1")) ∧
    cmd.childEnv parent c%"AFL_BENCH_UNTIL_CRASH" =
      (if o.runUntilCrash then some (.utf8 c%"1") else parent c%"AFL_BENCH_UNTIL_CRASH") := by
  obtain ⟨-, -, -, -, -, -, -, -, -, he⟩ := fuzzCommand_ok h
  have key : ∀ (k : Str), (∀ x ∈ llvm, x.1 ≠ k) → (llvm.map fun x => (x.1, some x.2)).foldl Env.apply parent k = parent k := by
    intro k hk
    refine foldl_apply_other _ _ _ fun x hx => ?_
    obtain ⟨z, hz, rfl⟩ := List.mem_map.mp hx
    exact hk z hz
  unfold Cmd.childEnv
  rw [he, List.foldl_append]
  generalize hE : (llvm.map fun x => (x.1, some x.2)).foldl Env.apply parent = E at *
  rw [← key _ fun x hx => (hl x hx).1, ← key _ fun x hx => (hl x hx).2]
  cases cfg.ui <;> cases o.runUntilCrash <;> exact ⟨rfl, rfl⟩

/-- A command with several options. -/
example : fuzzCommand true { maxTotalTime := some 60, timeout := some 2, zzargs := [c%"-x", c%"d"] } exCtx [] ⟨true, true, true⟩
      ⟨c%"/t/x", c%"x", none, none⟩ c%"m::f" =
    .ok ⟨c%"cargo", [c%"afl", c%"fuzz", c%"-c-", c%"-i", c%"/t/corpus/x::m::f", c%"-o", c%"/t/afl/output/x::m::f", c%"-M",
      c%"default", c%"-V", c%"60", c%"-t", c%"2000", c%"-x", c%"d", c%"--", c%"/t/x", c%"--exact", c%"m::f_fuzz__::entry"],
      [(c%"TEST_FUZZ", some c%"1"), (c%"TEST_FUZZ_WRITE", some c%"0")], none⟩ := by decide +kernel

/-! ## C39 -/

/-- What the option `-i` of a command gets. -/
def inputOption (args : List Str) : Option Str :=
  match args with
  | _ :: _ :: _ :: k :: v :: _ => if k = c%"-i" then some v else none
  | _ => none

/-- In the fuzzing loop, the first fuzzer of a target reads the corpus (unless --resume is given) and every later one
resumes the session. -/
theorem C39_first_then_resume (o : Opts) (y : Sys) (llvm : List (Str × Str)) (k : FCfg) (ets : List (Exe × Str))
    (s : FState) (h : Reach k s) (pre post : List LogEv) (t sl : Nat) (first : Bool)
    (hl : s.log = pre ++ .start t sl first :: post) (exe : Exe) (target : Str) (he : ets[t]? = some (exe, target))
    (cmd : Cmd) (hc : loopCommand o y llvm k ets (.start t sl first) = some (.ok cmd)) :
    ∃ corpus, corpusDirFromTarget y.ctx exe.name target = .ok corpus ∧
      inputOption cmd.args = some (if starts t pre = 0 ∧ o.resume = false then pathStr corpus else c%"-") := by
  have hg := h.inv.good.at pre _ post hl
  simp only [loopCommand, he, Option.map_some, Option.some.injEq] at hc
  obtain ⟨corpus, out, tm, h1, -, -, -, -, ha, -⟩ := fuzzCommand_ok hc
  refine ⟨corpus, h1, ?_⟩
  have hf : first = decide (starts t pre = 0) := by
    have := hg.2.2.2.2.1
    cases first <;> simp_all
  rw [ha, hf]
  by_cases h0 : starts t pre = 0 <;> cases o.resume <;> simp [inputOption, h0]

/-- A single target without --exit-code is fuzzed by one fuzzer, which reads the corpus unless --resume is given. -/
theorem C39_single (o : Opts) (y : Sys) (llvm : List (Str × Str)) (exe : Exe) (target : Str) (s : RSt)
    (hx : o.exitCode = false) (hcov : o.coverage = none) (s1 : RSt)
    (hg : autoGenerateCorpora y llvm [(exe, target)] s = (.ok (), s1)) :
    (∃ cmd corpus, corpusDirFromTarget y.ctx exe.name target = .ok corpus ∧
      (fuzz o y llvm [(exe, target)] s).2.acts = s1.acts ++ [.command cmd] ∧
      inputOption cmd.args = some (if o.resume then c%"-" else pathStr corpus)) ∨
    ((fuzz o y llvm [(exe, target)] s).2.acts = s1.acts ∧ (fuzz o y llvm [(exe, target)] s).1 ≠ .ok ()) := by
  unfold fuzz
  simp only [hcov, Option.isNone_none, assert, if_true, Rm.lift_ok_bind]
  rw [Rm.bind_ok hg]
  simp only [hx]
  rw [Rm.bind_def]
  split
  · next cmd s2 hc =>
    left
    simp only [Rm.io, Prod.mk.injEq] at hc
    obtain ⟨hc, rfl⟩ := hc
    have hfc := fuzzCommandIO_ok hc
    obtain ⟨corpus, out, tm, h1, -, -, -, -, ha, -⟩ := fuzzCommand_ok hfc
    refine ⟨cmd, corpus, h1, ?_, ?_⟩
    · rw [Rm.bind_def]
      simp only [Rm.command]
      cases (y.command s1.acts cmd _).1 <;> rfl
    · rw [ha]; cases o.resume <;> simp [inputOption]
  all_goals
    right
    rename_i hc
    have := congrArg (fun x => x.2.acts) hc
    simp only [Rm.io] at this
    exact ⟨this.symm, by simp⟩

/-! ## C61 -/

/-- Converting a command keeps the program, its arguments and its working directory, and the child gets the environment
it would have got, whatever the order in which `get_envs` lists the changes. -/
theorem C61_same_child (parent : Env) (c : Cmd) (listing : List (Str × Option Str))
    (hn : (listing.map Prod.fst).Nodup) (hl : ∀ k v, (k, v) ∈ listing ↔ LastChange c.envs k v) :
    (toExec parent c listing).program = c.program ∧ (toExec parent c listing).args = c.args ∧
      (toExec parent c listing).cwd = c.cwd ∧ (toExec parent c listing).env = c.childEnv parent := by
  refine ⟨rfl, rfl, rfl, ?_⟩
  funext k
  simp only [toExec, Cmd.childEnv]
  by_cases hk : ∃ v, LastChange c.envs k v
  · obtain ⟨v, hv⟩ := hk
    rw [foldl_apply_last _ _ _ _ hv, foldl_apply_last _ _ _ _ (lastChange_of_nodup hn ((hl k v).mpr hv))]
  · rw [foldl_apply_other _ _ _ fun x hx => ?_, foldl_apply_other _ _ _ fun x hx => ?_]
    · rintro rfl; exact hk (exists_lastChange hx)
    · rintro rfl; exact hk ⟨x.2, (hl _ _).mp hx⟩

/-- The changes listed once each, in another order. -/
example : let c : Cmd := { program := c%"p", envs := [(c%"A", some c%"1"), (c%"B", none), (c%"A", some c%"2")] }
    let l := [(c%"B", none), (c%"A", some c%"2")]
    (l.map Prod.fst).Nodup ∧ LastChange c.envs c%"A" (some c%"2") ∧ LastChange c.envs c%"B" none ∧
      (toExec (fun _ => none) c l).env c%"A" = some (.utf8 c%"2") := by
  refine ⟨by decide, ⟨[(c%"A", some c%"1"), (c%"B", none)], [], rfl, by simp⟩,
    ⟨[(c%"A", some c%"1")], [(c%"A", some c%"2")], rfl, by decide⟩, by decide⟩

end TF
