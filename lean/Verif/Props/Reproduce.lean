import Verif.Spec.Reproduce
import Verif.Props.Persistent
import Verif.Props.CommandEnv
import Verif.Props.Details
import Verif.Props.EndToEnd
import Verif.Props.Storage
import Verif.Props.History
import Verif.Props.RunCases

/-!
# C89: what a fuzzer found is reproduced by a replay
-/

namespace TF

open Spec

variable {V R : Type}

theorem fatal_iff {t : Target V} {body : V → Prog V R} {b : Bytes} :
    Fatal t body b ↔ Escapes t body b ∨ Swallowed t body b := by
  constructor
  · rintro ⟨v, hv, h⟩
    cases hp : plain (body v) with
    | ok r =>
      refine .inr ⟨v, r, hv, ?_, hp⟩
      rcases h with h | h
      · exact h
      · exact absurd hp (h r)
    | _ => exact .inl ⟨v, hv, fun r => by rw [hp]; exact nofun⟩
  · rintro (⟨v, hv, h⟩ | ⟨v, r, hv, h, -⟩)
    · exact ⟨v, hv, .inr h⟩
    · exact ⟨v, hv, .inl h⟩

/-- A panic either gets out of the target or is caught in it. -/
theorem escapes_or_swallowed {t : Target V} {body : V → Prog V R} {b : Bytes} (h : Escapes t body b) :
    ¬ Swallowed t body b := by
  obtain ⟨v, hv, h⟩ := h
  rintro ⟨v', r, hv', -, hr⟩
  rw [hv] at hv'
  cases hv'
  exact h r hr

/-! ## One process -/

/-- **C89 (found).** A fuzzed process does not survive an input exactly if the input decodes to arguments with which a panic
begins in the target, or the process ends: nothing that the fuzzer reports is due to the harness, and what it does not report
does not happen. -/
theorem C89_found (e : Env) (he : Fuzzing e) (t : Target V) (body : V → Prog V R) (ht : hasEntry t.macro_ = true) (b : Bytes) :
    (Died e t body b ↔ Escapes t body b ∨ Swallowed t body b) ∧
    (∀ (c : Setting) (s : Proc V R), HarnessProcess e b c s →
      ((∀ f, (runHarness c t body s).1 ≠ .ok f) ↔ Escapes t body b ∨ Swallowed t body b)) := by
  have key : ∀ (c : Setting) (s : Proc V R), HarnessProcess e b c s →
      ((∀ f, (runHarness c t body s).1 ≠ .ok f) ↔ Escapes t body b ∨ Swallowed t body b) := by
    intro c s h
    have := survives_iff c t body s ht h.test (h.env ▸ he)
    rw [h.stdin] at this
    rw [← fatal_iff]
    refine ⟨fun hn => ?_, fun hf f hf' => ?_⟩
    · exact Classical.not_not.mp fun hnf => by
        obtain ⟨f, hf⟩ := this.mpr hnf
        exact hn f hf
    · exact this.mp ⟨f, hf'⟩ hf
  refine ⟨⟨?_, fun h => ?_⟩, key⟩
  · rintro ⟨c, s, hp, hn⟩
    exact (key c s hp).mp hn
  · let c : Setting := ⟨⟨e, true, [], fun _ => none⟩, fun _ => .ok, true, b, [b]⟩
    let s : Proc V R := ⟨⟨fun _ => none, 0⟩, .standard, false, []⟩
    have hp : HarnessProcess e b c s := ⟨rfl, rfl, rfl, by simp [s]⟩
    exact ⟨c, s, hp, (key c s hp).mpr h⟩

/-- The arguments that the fuzzer found are those with which the target was called. -/
theorem C89_found_call (e : Env) (he : Fuzzing e) (t : Target V) (body : V → Prog V R) (ht : hasEntry t.macro_ = true)
    (c : Setting) (s : Proc V R) (b : Bytes) (h : HarnessProcess e b c s) (hn : ∀ f, (runHarness c t body s).1 ≠ .ok f) :
    ∃ v, t.de b = some v ∧ ∃ l, (runHarness c t body s).2.log = s.log ++ [.readStdin] ++ .call v :: .body v :: l ∧
      ∀ w, .call w ∉ l := by
  have hf := ((C89_found e he t body ht b).2 c s h).mp hn
  have hv : ∃ v, t.de b = some v := by
    rcases hf with ⟨v, hv, -⟩ | ⟨v, r, hv, -⟩ <;> exact ⟨v, hv⟩
  obtain ⟨v, hv⟩ := hv
  obtain ⟨l, h1, -, h2, -⟩ := fuzzing_spec c t body s ht h.test (h.env ▸ he) v (by rw [h.stdin]; exact hv)
  exact ⟨v, hv, l, h1, fun w hw => by simpa [Inner] using h2 _ hw⟩

/-- **C89 (replayed).** A replayed process (or one that measures coverage) does not survive an input exactly if a panic
gets out of the target, or the process ends. -/
theorem C89_replayed (e : Env) (he : Replaying e) (t : Target V) (body : V → Prog V R) (ht : hasEntry t.macro_ = true)
    (c : Setting) (s : Proc V R) (b : Bytes) (h : HarnessProcess e b c s) :
    (∃ f, (runHarness c t body s).1 = .ok f) ↔ ¬ Escapes t body b := by
  have he' : Replaying c.ctx.env := h.env ▸ he
  have hb := h.stdin
  cases hv : t.de b with
  | none =>
    refine ⟨fun _ => ?_, fun _ => (C11_undecodable c t body s he'.1 (by rw [hb]; exact hv)).1⟩
    rintro ⟨v, hv', -⟩
    rw [hv] at hv'
    cases hv'
  | some v =>
    have hh := h.hook
    obtain ⟨l0, l, -, -, -, -, -, -, -, h1, h2, h3⟩ := replaying_spec c t body s ht h.test he' v (by rw [hb]; exact hv)
    have ho : outcome s.hook (body v) = plain (body v) := by simp [outcome, hh]
    rw [ho] at h2 h3
    simp only [ho] at h1
    constructor
    · rintro ⟨f, hf⟩ ⟨v', hv', hn⟩
      rw [hv] at hv'
      cases hv'
      cases hp : plain (body v) with
      | ok r => exact hn r hp
      | panic => rw [h2 hp] at hf; cases hf
      | crash => rw [h3 hp] at hf; cases hf
      | err e => exact absurd hp ((plain_noErr _).1 e)
      | exit n => exact absurd hp ((plain_noErr _).2 n)
    · intro hn
      have : ∃ r, plain (body v) = .ok r := Classical.not_not.mp fun hx => hn ⟨v, hv, fun r hr => hx ⟨r, hr⟩⟩
      obtain ⟨r, hr⟩ := this
      exact ⟨_, h1 r hr⟩

/-- **C89 (difference).** What the fuzzer finds and a replay does not fail on is exactly what the target catches itself. -/
theorem C89_difference (e e' : Env) (he : Fuzzing e) (he' : Replaying e') (t : Target V) (body : V → Prog V R)
    (ht : hasEntry t.macro_ = true) (b : Bytes) (c : Setting) (s : Proc V R) (h : HarnessProcess e' b c s) :
    (Died e t body b ∧ ∃ f, (runHarness c t body s).1 = .ok f) ↔ Swallowed t body b := by
  rw [(C89_found e he t body ht b).1, C89_replayed e' he' t body ht c s b h]
  constructor
  · rintro ⟨h1 | h1, h2⟩
    · exact absurd h1 h2
    · exact h1
  · exact fun h1 => ⟨.inr h1, fun h2 => escapes_or_swallowed h2 h1⟩

/-! ## The environments that the program arranges -/

theorem foldl_apply_unset (k : Str) : ∀ (l : List (Str × Option Str)) (E : Env), (∀ x ∈ l, x.1 ≠ k) → l.foldl Env.apply E k = E k
  | [], _, _ => rfl
  | x :: l, E, h => by
    rw [List.foldl_cons, foldl_apply_unset k l _ (fun y hy => h y (List.mem_cons_of_mem _ hy))]
    have := h x List.mem_cons_self
    obtain ⟨a, b⟩ := x
    simp only [ne_eq] at this
    cases b <;> simp [Env.apply, Env.set, Ne.symm this]

/-- **C89 (environment of the fuzzer).** If no switch is on that gives harnesses another purpose, what the fuzzer starts is
fuzzed. -/
theorem C89_fuzzer_environment (checks : Bool) (o : Opts) (c : Ctx) (llvm : List (Str × Str)) (cfg : Config) (exe : Exe)
    (target : Str) (cmd : Cmd) (h : fuzzCommand checks o c llvm cfg exe target = .ok cmd) (parent : Env)
    (hp : NoPurpose parent)
    (hl : ∀ x ∈ llvm, x.1 ∉ [c%"TEST_FUZZ_COVERAGE", c%"TEST_FUZZ_DISPLAY", c%"TEST_FUZZ_REPLAY"]) :
    Fuzzing (cmd.childEnv parent) := by
  have h1 := (C08_fuzzer_environment checks o c llvm cfg exe target cmd h parent).1
  obtain ⟨-, -, -, -, -, -, -, -, -, he⟩ := fuzzCommand_ok h
  have key : ∀ k ∈ [c%"TEST_FUZZ_COVERAGE", c%"TEST_FUZZ_DISPLAY", c%"TEST_FUZZ_REPLAY"], cmd.childEnv parent k = parent k := by
    intro k hk
    unfold Cmd.childEnv
    rw [he]
    apply foldl_apply_unset
    intro x hx
    rcases List.mem_append.mp hx with hx | hx
    · obtain ⟨z, hz, rfl⟩ := List.mem_map.mp hx
      exact fun e => hl z hz (e ▸ hk)
    · rintro rfl
      have hx' := List.mem_map_of_mem (f := Prod.fst) hx
      revert hx' hk
      generalize x.1 = k'
      cases cfg.ui <;> cases o.runUntilCrash <;> simp [baseEnvs] <;> (rintro (rfl | rfl | rfl) <;> decide)
  refine ⟨h1, ?_, ?_, ?_⟩
  · rintro ⟨v, hv, h0⟩; rw [key _ (by simp)] at hv; exact hp.1 ⟨v, hv, h0⟩
  · rintro ⟨v, hv, h0⟩; rw [key _ (by simp)] at hv; exact hp.2.1 ⟨v, hv, h0⟩
  · rintro ⟨v, hv, h0⟩; rw [key _ (by simp)] at hv; exact hp.2.2 ⟨v, hv, h0⟩

/-- **C89 (environment of a replay).** Whatever the environment of the program is, the harnesses that it starts for a replay,
or for coverage, replay. -/
theorem C89_replay_environment (o : Opts) (ho : o.coverage.isSome ∨ o.replay.isSome) (parent : Env) (llvm : List (Str × Str))
    (listing : Cmd → List (Str × Option Str)) (exe : Exe) (target : Str) (e : Exec)
    (h : entryExec o parent llvm listing exe target = .ok e) : Replaying e.env := by
  refine ⟨(C08_harness_environment o parent llvm listing exe target e h).1, ?_⟩
  obtain ⟨-, -, cmd, -, -, hk⟩ := C23_harness_process o parent llvm listing exe target e h
  rcases ho with ho | ho
  · refine .inl ⟨c%"1", ?_, by decide⟩
    rw [hk]; simp [harnessVar, ho]
  · refine .inr ⟨c%"1", ?_, by decide⟩
    rw [hk]; simp [harnessVar, ho]

/-! ## The commands -/

/-- The reports of a replay. -/
theorem replayed_reports {lim : Nat} {y : Sys} {args : List Str} {exe : Str} {fs : FS} {dir : Path} {a : List Act}
    {ns : List Str} {l : List Act} (h : Replayed lim y args exe fs dir a ns l)
    {t : Target V} {body : V → Prog V R} (ht : hasEntry t.macro_ = true) {e : Env} (he : Replaying e)
    (hg : Genuine y args exe e t body) :
    (l.filterMap reportOf).map Report.name = ns ∧
    ∀ r ∈ l.filterMap reportOf, ∀ b, contents fs (dir ++ [r.name]) = some b →
      TimedOut r ∨ ∃ ok, r.verdict = .status ok ∧ (ok = false ↔ Escapes t body b) := by
  induction h with
  | nil => exact ⟨rfl, nofun⟩
  | @ended a n ns w t' ok k v l hy hlim _ ih =>
    refine ⟨?_, ?_⟩
    · exact congrArg (n :: ·) ih.1
    · intro r hr b hb
      have hr : r ∈ (⟨n, w t', .status ok⟩ : Report) :: l.filterMap reportOf := hr
      rcases List.mem_cons.mp hr with rfl | hr
      · rw [hb] at hy
        obtain ⟨c, s, hp, hok⟩ := hg _ _ _ _ _ _ _ _ hy
        refine .inr ⟨ok, rfl, ?_⟩
        rw [C89_replayed e he t body ht c s b hp] at hok
        cases ok
        · simpa using hok
        · simpa using hok
      · exact ih.2 r hr b hb
  | @killed a n ns w cl st l hy hlim _ ih =>
    refine ⟨?_, ?_⟩
    · exact congrArg (n :: ·) ih.1
    · intro r hr b hb
      have hr : r ∈ (⟨n, w (1000 * lim), .timeout⟩ : Report) :: l.filterMap reportOf := hr
      rcases List.mem_cons.mp hr with rfl | hr
      · exact .inl rfl
      · exact ih.2 r hr b hb

/-- **C89 (verdicts).** A replay (or measuring coverage) runs the target's harness on each stored input, and reports for each
whether a panic gets out of the target, or the process ends, when it is given that input, unless that takes too long. -/
theorem C89_verdicts (o : Opts) (ho : o.coverage.isSome ∨ o.replay.isSome) (y : Sys) (hy : Reliable y) (hh : HarnessesRun y)
    (exe : Exe) (target : Str) (f : Flags) (hf : f.raw = false) (dir : Path) (s : RSt) (hd : s.world.fs dir = some .dir)
    (hl : y.lister.Correct s.world.fs dir) (hsp : ∀ n, Spared y (dir ++ [n]))
    (parent : Env) (llvm : List (Str × Str)) (listing : Cmd → List (Str × Option Str)) (e : Exec)
    (he : entryExec o parent llvm listing exe target = .ok e)
    (t : Target V) (body : V → Prog V R) (ht : hasEntry t.macro_ = true) (hg : Genuine y e.args e.program e.env t body) :
    (forEachEntry o y exe target f dir s).1 = .ok () ∧
    ∃ l, (forEachEntry o y exe target f dir s).2.acts = s.acts ++ l ∧
      (l.filterMap reportOf).map Report.name = inputs y.lister s.world.fs dir ∧
      ∀ r ∈ l.filterMap reportOf, ∀ b, s.world.fs (dir ++ [r.name]) = some (.file b) →
        TimedOut r ∨ ∃ ok, r.verdict = .status ok ∧ (ok = false ↔ Escapes t body b) := by
  have hR := C89_replay_environment o ho parent llvm listing exe target e he
  obtain ⟨h1, h2, -⟩ := C23_harness_process o parent llvm listing exe target e he
  rw [h1, h2] at hg
  obtain ⟨lim, l, notes, -, k1, k2, k3, -⟩ := C33_survives o (by tauto) y hy hh exe target f hf dir s hd hl hsp
  obtain ⟨m1, m2⟩ := replayed_reports k3 ht hR hg
  have hn : ∀ ns : List Str, (ns.map Act.note).filterMap reportOf = [] := by
    intro ns; induction ns with
    | nil => rfl
    | cons a ns ih => exact ih
  refine ⟨k1, l ++ notes.map Act.note, by rw [k2, List.append_assoc], ?_, ?_⟩
  · rw [List.filterMap_append, hn, List.append_nil]; exact m1
  · rw [List.filterMap_append, hn, List.append_nil]
    exact fun r hr b hb => m2 r hr b (by simp [contents, hb])

/-- What is to be reported for an input that the fuzzer found. -/
def Spec.Reproduced (t : Target V) (body : V → Prog V R) (b : Bytes) (r : Report) : Prop :=
  TimedOut r ∨ (r.verdict = .status false ∧ Escapes t body b) ∨ (r.verdict = .status true ∧ Swallowed t body b)

/-- **C89 (reproduced).** Let the inputs in a directory be such as a fuzzed process did not survive. Then each of them is
reported as failing when they are replayed, except for those that take too long and those with which the target catches the
panic itself. -/
theorem C89_reproduced (o : Opts) (ho : o.coverage.isSome ∨ o.replay.isSome) (y : Sys) (hy : Reliable y) (hh : HarnessesRun y)
    (exe : Exe) (target : Str) (f : Flags) (hf : f.raw = false) (dir : Path) (s : RSt) (hd : s.world.fs dir = some .dir)
    (hl : y.lister.Correct s.world.fs dir) (hsp : ∀ n, Spared y (dir ++ [n]))
    (parent : Env) (llvm : List (Str × Str)) (listing : Cmd → List (Str × Option Str)) (e : Exec)
    (he : entryExec o parent llvm listing exe target = .ok e)
    (t : Target V) (body : V → Prog V R) (ht : hasEntry t.macro_ = true) (hg : Genuine y e.args e.program e.env t body)
    -- the fuzzer, before
    (e' : Env) (he' : Fuzzing e')
    (hfound : ∀ n b, ¬ Bookkeeping n → s.world.fs (dir ++ [n]) = some (.file b) → Died e' t body b) :
    (forEachEntry o y exe target f dir s).1 = .ok () ∧
    ∃ l, (forEachEntry o y exe target f dir s).2.acts = s.acts ++ l ∧
      (l.filterMap reportOf).map Report.name = inputs y.lister s.world.fs dir ∧
      ∀ r ∈ l.filterMap reportOf, ∀ b, s.world.fs (dir ++ [r.name]) = some (.file b) → Reproduced t body b r := by
  obtain ⟨h1, l, h2, h3, h4⟩ := C89_verdicts o ho y hy hh exe target f hf dir s hd hl hsp parent llvm listing e he t body ht hg
  refine ⟨h1, l, h2, h3, fun r hr b hb => ?_⟩
  rcases h4 r hr b hb with h | ⟨ok, hok, hiff⟩
  · exact .inl h
  · have hn : r.name ∈ inputs y.lister s.world.fs dir := h3 ▸ List.mem_map_of_mem hr
    have hbk : ¬ Bookkeeping r.name := by
      have := (List.mem_filter.mp hn).2
      simpa using this
    have hfo := (C89_found e' he' t body ht b).1.mp (hfound _ b hbk hb)
    cases ok with
    | false => exact .inr (.inl ⟨hok, hiff.mp rfl⟩)
    | true =>
      refine .inr (.inr ⟨hok, hfo.resolve_left fun h => ?_⟩)
      cases hiff.mpr h

/-- **C89 (crashes).** `cargo test-fuzz --replay crashes` looks where the fuzzer leaves the inputs that the target did not
survive, and reproduces them. -/
theorem C89_crashes (o : Opts) (hc : o.coverage = none) (hdi : o.display = none) (ho : o.replay = some .crashes)
    (y : Sys) (hy : Reliable y) (hh : HarnessesRun y)
    (exe : Exe) (target : Str) (out : Path) (hout : outputDirFromTarget y.ctx exe.name target = .ok out)
    (s : RSt) (hd : s.world.fs (out ++ [c%"default", c%"crashes"]) = some .dir)
    (hl : y.lister.Correct s.world.fs (out ++ [c%"default", c%"crashes"]))
    (hsp : ∀ n, Spared y (out ++ [c%"default", c%"crashes"] ++ [n]))
    (parent : Env) (llvm : List (Str × Str)) (listing : Cmd → List (Str × Option Str)) (e : Exec)
    (he : entryExec o parent llvm listing exe target = .ok e)
    (t : Target V) (body : V → Prog V R) (ht : hasEntry t.macro_ = true) (hg : Genuine y e.args e.program e.env t body)
    -- the fuzzer, before
    (checks : Bool) (o' : Opts) (cfg : Config) (llvm' : List (Str × Str)) (parent' : Env) (cmd : Cmd)
    (hcmd : fuzzCommand checks o' y.ctx llvm' cfg exe target = .ok cmd) (hp : NoPurpose parent')
    (hl' : ∀ x ∈ llvm', x.1 ∉ [c%"TEST_FUZZ_COVERAGE", c%"TEST_FUZZ_DISPLAY", c%"TEST_FUZZ_REPLAY"])
    (hfound : ∀ n b, ¬ Bookkeeping n → s.world.fs (out ++ [c%"default", c%"crashes"] ++ [n]) = some (.file b) →
      Died (cmd.childEnv parent') t body b) :
    ∃ f dir, chooseFlagsAndDir o y.ctx exe.name target = .ok (f, dir) ∧
      (forEachEntry o y exe target f dir s).1 = .ok () ∧
      ∃ l, (forEachEntry o y exe target f dir s).2.acts = s.acts ++ l ∧
        (l.filterMap reportOf).map Report.name = inputs y.lister s.world.fs (out ++ [c%"default", c%"crashes"]) ∧
        ∀ r ∈ l.filterMap reportOf, ∀ b,
          s.world.fs (out ++ [c%"default", c%"crashes"] ++ [r.name]) = some (.file b) → Reproduced t body b r := by
  have hfl : chooseFlagsAndDir o y.ctx exe.name target = .ok (⟨false, false⟩, out ++ [c%"default", c%"crashes"]) := by
    have hj : out.join c%"default/crashes" = out ++ [c%"default", c%"crashes"] := rfl
    simp only [chooseFlagsAndDir, hc, hdi, ho, flagsAndDir, crashesDirFromTarget, hout, Out.ok_bind, hj]
  exact ⟨_, _, hfl, C89_reproduced o (.inr (by rw [ho]; rfl)) y hy hh exe target _ rfl _ s hd hl hsp parent llvm listing e he t body
    ht hg _ (C89_fuzzer_environment checks o' y.ctx llvm' cfg exe target cmd hcmd parent' hp hl') hfound⟩

/-- **C89 (kept).** After consolidation, what was found is in the target's corpus, and replaying the corpus reproduces it. -/
theorem C89_kept (oc : Opts) (hoc : Consolidating oc) (c : Ctx) (ls : Lister) (hls : GoodLister ls)
    (root : Path) (ets : List (Exe × List Str)) (hsel : ValidSel c root ets) (pl : Plan)
    (hpl : NoIoErrors pl) (w w' : World) (hwf : WellFormed w.fs) (hfin : FiniteFindings c ets w.fs)
    (hnc : NoCollisions c ets w.fs) (hok : storage oc c ls ets pl w = (.ok (), w'))
    (x : Exe × Str) (p : Path) (b : Bytes) (hx : FindingOf c ets w.fs x p b) (corp : Path)
    (hcorp : dirOf c x.1.name x.2 .corpus = .ok corp)
    -- a replay of the corpus, afterwards
    (o : Opts) (ho : o.coverage.isSome ∨ o.replay.isSome) (y : Sys) (hy : Reliable y) (hh : HarnessesRun y)
    (f : Flags) (hf : f.raw = false) (s : RSt) (hs : ∀ q, corp <+: q → s.world.fs q = w'.fs q)
    (hd : s.world.fs corp = some .dir) (hl : y.lister.Correct s.world.fs corp)
    (hsp : ∀ n, Spared y (corp ++ [n]))
    (parent : Env) (llvm : List (Str × Str)) (listing : Cmd → List (Str × Option Str)) (e : Exec)
    (he : entryExec o parent llvm listing x.1 x.2 = .ok e)
    (t : Target V) (body : V → Prog V R) (ht : hasEntry t.macro_ = true) (hg : Genuine y e.args e.program e.env t body)
    (e' : Env) (he' : Fuzzing e') (hfound : Died e' t body b) :
    (forEachEntry o y x.1 x.2 f corp s).1 = .ok () ∧
    ∃ l r, (forEachEntry o y x.1 x.2 f corp s).2.acts = s.acts ++ l ∧ .report r ∈ l ∧
      hexDecode r.name = some (Sha1.digest b) ∧ Reproduced t body b r := by
  have hfile := (C29_consolidate oc hoc c ls hls root ets hsel pl hpl w w' hwf hfin hnc hok).1 x p b corp hx hcorp
  have hfile' : s.world.fs (corp ++ [fileName b]) = some (.file b) := by
    rw [hs _ (List.prefix_append _ _)]; exact hfile
  obtain ⟨h1, l, h2, h3, h4⟩ := C89_verdicts o ho y hy hh x.1 x.2 f hf corp s hd hl hsp parent llvm listing e he t body ht hg
  refine ⟨h1, ?_⟩
  have hn : fileName b ∈ inputs y.lister s.world.fs corp := by
    refine List.mem_filter.mpr ⟨(hl.2 _).mpr (by rw [hfile']; rfl), ?_⟩
    simpa using fileName_not_bookkeeping b
  rw [← h3] at hn
  obtain ⟨r, hr, hrn⟩ := List.mem_map.mp hn
  have hrl : .report r ∈ l := by
    obtain ⟨a, ha, har⟩ := List.mem_filterMap.mp hr
    cases a <;> simp [reportOf] at har
    rw [← har]; exact ha
  refine ⟨l, r, h2, hrl, by rw [hrn]; exact fileName_decode b, ?_⟩
  have hfo := (C89_found e' he' t body ht b).1.mp hfound
  rcases h4 r hr b (by rw [hrn]; exact hfile') with h | ⟨ok, hok, hiff⟩
  · exact .inl h
  · cases ok with
    | false => exact .inr (.inl ⟨hok, hiff.mp rfl⟩)
    | true =>
      refine .inr (.inr ⟨hok, hfo.resolve_left fun h => ?_⟩)
      cases hiff.mpr h

/-! ## A case -/

namespace ReproduceDemo

open HarnessDemo (target)

/-- Panics on 1; on 2, a panic begins that it catches. -/
def body (v : UInt8) : Prog UInt8 Nat := if v = 1 then .panic else HarnessDemo.body v

/-- Inputs as in `Demo.fs`: 1 and 2. -/
def sys : Sys := { Demo.sys with
  harness := fun l => match l.getLast? with
    | some (.harness _ _ _ (some (1 :: _))) => .runs (fun _ => Demo.bytes c%"panicked") (some 10) (some false) true true
    | _ => .runs (fun _ => []) (some 10) (some true) true true }

theorem escapes (b : Bytes) : Escapes target body b ↔ b.head? = some 1 := by
  constructor
  · rintro ⟨v, hv, h⟩
    have hv : b.head? = some v := hv
    by_cases h1 : v = 1
    · rw [hv, h1]
    · refine absurd ?_ (h (if v + 1 = 3 then 0 else 5))
      by_cases h3 : v + 1 = 3
      · simp [body, if_neg h1, HarnessDemo.body, plain, h3]
      · simp [body, if_neg h1, HarnessDemo.body, plain, h3]
  · intro h
    exact ⟨1, h, fun r hr => by cases hr⟩

theorem genuine (args : List Str) (exe : Str) (e : Env) (he : Replaying e) : Genuine sys args exe e target body := by
  intro acts p b w cl ok k v h
  refine ⟨⟨⟨e, true, [], fun _ => none⟩, fun _ => .ok, true, b, [b]⟩, HarnessDemo.start, ⟨rfl, rfl, rfl, by simp [HarnessDemo.start]⟩, ?_⟩
  rw [C89_replayed e he target body rfl _ _ b ⟨rfl, rfl, rfl, by simp [HarnessDemo.start]⟩, escapes]
  simp only [sys, List.getLast?_append, List.getLast?_singleton, Option.some_or] at h
  split at h
  · next h' =>
    cases h
    cases h'
    simp
  · next h' =>
    cases h
    simp only [true_iff]
    cases b with
    | nil => simp
    | cons a b =>
      intro ha
      cases ha
      exact h' _ _ _ _ rfl

open Demo in
/-- The input 1 is reported as failing, the input 2, which the fuzzer also finds, is not. -/
example : Escapes target body [1] ∧ Swallowed target body [2] ∧
    ((run { opts with replay := some .corpus, ztarget := some c%"a" } ReproduceDemo.sys Demo.start).2.acts.filterMap
      reportOf).map (fun r => (r.name, r.verdict)) = [(c%"x", .status false), (c%"y", .status true)] := by
  refine ⟨(escapes _).mpr rfl, ⟨2, 0, rfl, rfl, rfl⟩, by decide +kernel⟩

end ReproduceDemo

end TF
