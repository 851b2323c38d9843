import Verif.Spec.Panics
import Verif.Props.Modes
import Verif.Props.SemverText
import Verif.Props.Ui

/-!
# When `cargo test-fuzz` panics (C104)
-/

namespace TF

open Spec

/-! ## Computations that panic only for a reason -/

/-- `x` panics only if `C`. -/
def PanicIf {α} (C : Prop) (x : Rm α) : Prop := ∀ s, (x s).1 = .panic → C

def IOm.PanicIf {α} (C : Prop) (x : IOm α) : Prop := ∀ pl w, (x pl w).1 = .panic → C

namespace PanicIf
variable {α β : Type} {C : Prop}

theorem bind {x : Rm α} {f : α → Rm β} (hx : PanicIf C x) (hf : ∀ a, PanicIf C (f a)) : PanicIf C (x >>= f) := by
  intro s h
  have := hx s
  rw [Rm.bind_def] at h
  split at h
  all_goals first | exact hf _ _ h | (rename_i hx'; rw [hx'] at this; exact this rfl) | cases h

theorem bindOk {x : Rm α} {f : α → Rm β} (hx : PanicIf C x) (hf : ∀ a s s', x s = (.ok a, s') → PanicIf C (f a)) :
    PanicIf C (x >>= f) := by
  intro s h
  have := hx s
  rw [Rm.bind_def] at h
  split at h
  all_goals first | (rename_i hx'; exact hf _ _ _ hx' _ h) | (rename_i hx'; rw [hx'] at this; exact this rfl) | cases h

theorem pure (a : α) : PanicIf C (Pure.pure a : Rm α) := fun _ h => nomatch h
theorem lift {x : Out α} (h : x = .panic → C) : PanicIf C (Rm.lift x) := fun _ h' => h h'
theorem act (a : Act) : PanicIf C (Rm.act a) := fun _ h => nomatch h
theorem io (y : Sys) {x : IOm α} (h : x.PanicIf C) : PanicIf C (Rm.io y x) := fun _ h' => h _ _ h'
theorem command (y : Sys) (c : Cmd) : PanicIf C (Rm.command y c) := fun _ h => nomatch h
theorem harness (l y a e f i) : PanicIf C (Rm.harness l y a e f i) := fun _ h => nomatch h
theorem when {b : Bool} {x : Rm Unit} (h : b = true → PanicIf C x) : PanicIf C (Rm.when b x) := by
  unfold Rm.when
  split
  · next hb => exact h hb
  · exact .pure _

end PanicIf

namespace IOm.PanicIf
variable {α β : Type} {C : Prop}

theorem bind {x : IOm α} {f : α → IOm β} (hx : x.PanicIf C) (hf : ∀ a, (f a).PanicIf C) : (x >>= f).PanicIf C := by
  intro pl w h
  have := hx pl w
  rw [show (x >>= f) = IOm.bind x f from rfl] at h
  unfold IOm.bind at h
  split at h
  all_goals first | exact hf _ _ _ h | (rename_i hx'; rw [hx'] at this; exact this rfl) | cases h

theorem pure (a : α) : (Pure.pure a : IOm α).PanicIf C := fun _ _ h => nomatch h
theorem lift {x : Out α} (h : x = .panic → C) : (IOm.lift x).PanicIf C := fun _ _ h' => h h'
theorem prim {full : FS → Out (α × FS)} {part : Part → FS → FS} (h : ∀ fs, full fs ≠ .panic) :
    (IOm.prim full part).PanicIf C := by
  intro pl w h'
  have := h w.fs
  unfold IOm.prim at h'
  split at h'
  · split at h' <;> simp_all
  · cases h'
  · cases h'

theorem ignore {x : IOm Unit} (h : x.PanicIf C) : (IOm.ignore x).PanicIf C := by
  intro pl w h'
  have := h pl w
  unfold IOm.ignore at h'
  split at h'
  · cases h'
  · exact this h'

end IOm.PanicIf

theorem Out.bind_panic {α β} {x : Out α} {f : α → Out β} (h : (x >>= f) = .panic) :
    x = .panic ∨ ∃ a, x = .ok a ∧ f a = .panic := by
  cases x with
  | ok a => exact .inr ⟨a, rfl, h⟩
  | panic => exact .inl rfl
  | err e => cases h
  | exit c => cases h
  | crash => cases h

theorem ensure_pan {b : Bool} {m : Str} : ensure b m ≠ .panic := by unfold ensure; split <;> simp
theorem assert_pan {b : Bool} (h : assert b = .panic) : b = false := by unfold assert at h; split at h <;> simp_all

/-! ## Directories -/

section
variable {C : Prop}

/-- `cargo metadata` fails for the directories. -/
def NoDirs (c : Ctx) : Prop := c.metadata (c.env.var c%"TEST_FUZZ_MANIFEST_PATH") = none

theorem targetDirectory_pan {c : Ctx} {a b : Bool} (h : targetDirectory c a b = .panic) : NoDirs c ∨ (a = true ∧ b = true) := by
  unfold targetDirectory at h
  rcases Out.bind_panic h with h | ⟨_, -, h⟩
  · have := assert_pan h; right; simpa using this
  · left
    split at h
    · assumption
    · cases h

theorem corpusDir_pan {c : Ctx} {k t} (h : corpusDirFromTarget c k t = .panic) : NoDirs c := by
  unfold corpusDirFromTarget corpusDirectory at h
  rcases Out.bind_panic h with h | ⟨_, -, h⟩
  · rcases Out.bind_panic h with h | ⟨_, -, h⟩
    · simpa using targetDirectory_pan h
    · cases h
  · cases h

theorem genericDir_pan {c : Ctx} {k t} (h : genericArgsDirFromTarget c k t = .panic) : NoDirs c := by
  unfold genericArgsDirFromTarget genericArgsDirectory at h
  rcases Out.bind_panic h with h | ⟨_, -, h⟩
  · rcases Out.bind_panic h with h | ⟨_, -, h⟩
    · simpa using targetDirectory_pan h
    · cases h
  · cases h

theorem implGenericDir_pan {c : Ctx} {k t} (h : implGenericArgsDirFromTarget c k t = .panic) : NoDirs c := by
  unfold implGenericArgsDirFromTarget implGenericArgsDirectory at h
  rcases Out.bind_panic h with h | ⟨_, -, h⟩
  · rcases Out.bind_panic h with h | ⟨_, -, h⟩
    · simpa using targetDirectory_pan h
    · cases h
  · cases h

theorem outputDir_pan {c : Ctx} {k t} (h : outputDirFromTarget c k t = .panic) : NoDirs c := by
  unfold outputDirFromTarget outputDirectory at h
  rcases Out.bind_panic h with h | ⟨_, -, h⟩
  · rcases Out.bind_panic h with h | ⟨_, -, h⟩
    · simpa using targetDirectory_pan h
    · cases h
  · cases h

theorem crashesDir_pan {c : Ctx} {k t} (h : crashesDirFromTarget c k t = .panic) : NoDirs c := by
  unfold crashesDirFromTarget at h
  rcases Out.bind_panic h with h | ⟨_, -, h⟩
  · exact outputDir_pan h
  · cases h

theorem hangsDir_pan {c : Ctx} {k t} (h : hangsDirFromTarget c k t = .panic) : NoDirs c := by
  unfold hangsDirFromTarget at h
  rcases Out.bind_panic h with h | ⟨_, -, h⟩
  · exact outputDir_pan h
  · cases h

theorem queueDir_pan {c : Ctx} {k t} (h : queueDirFromTarget c k t = .panic) : NoDirs c := by
  unfold queueDirFromTarget at h
  rcases Out.bind_panic h with h | ⟨_, -, h⟩
  · exact outputDir_pan h
  · cases h

theorem chooseFlagsAndDir_pan {o : Opts} {c : Ctx} {k t} (h : chooseFlagsAndDir o c k t = .panic) : NoDirs c := by
  have key : ∀ ob, flagsAndDir c ob k t = .panic → NoDirs c := by
    intro ob h
    unfold flagsAndDir at h
    split at h <;> (rcases Out.bind_panic h with h | ⟨_, -, h⟩ <;>
      first | exact corpusDir_pan h | exact crashesDir_pan h | exact hangsDir_pan h | exact queueDir_pan h |
        exact genericDir_pan h | exact implGenericDir_pan h | cases h)
  unfold chooseFlagsAndDir at h
  split at h
  · exact key _ h
  · split at h
    · exact key _ h
    · split at h
      · exact key _ h
      · cases h

/-! ## Input and output -/

theorem pathExists_pan (p) : (pathExists p).PanicIf C := by
  intro pl w h
  unfold pathExists at h
  split at h <;> cases h

theorem createDirAll_pan (p) : (createDirAll p).PanicIf C := .prim fun fs => by split <;> simp
theorem writeFile_pan (p d) : (writeFile p d).PanicIf C := .prim fun fs => by split <;> simp
theorem readFile_pan (p) : (readFile p).PanicIf C := .prim fun fs => by split <;> simp
theorem openEntry_pan (p) : (openEntry p).PanicIf C := .prim fun fs => by split <;> simp
theorem readDir_pan (ls p) : (readDir ls p).PanicIf C := .prim fun fs => by split <;> simp
theorem removeDirAll_pan (p) : (removeDirAll p).PanicIf C := .prim fun fs => by split <;> simp

theorem writeData_pan (d b) : (writeData d b).PanicIf C := by
  unfold writeData
  exact .bind (.ignore (createDirAll_pan _)) fun _ => writeFile_pan _ _

theorem consolidateDir_pan (ls c d) : (consolidateDir ls c d).PanicIf C := by
  unfold consolidateDir
  refine .bind (readDir_pan _ _) fun names => ?_
  induction names with
  | nil => exact .pure _
  | cons n ns ih =>
    unfold consolidateEntries
    split
    · exact ih
    · exact .bind (readFile_pan _) fun _ => .bind (writeData_pan _ _) fun _ => ih

theorem consolidateLoop_pan (o : Opts) (c : Ctx) (hc : NoDirs c → C) (ls : Lister) (ets : List (Exe × List Str))
    (h : (∃ x ∈ ets, x.2.length ≠ 1) → o.consolidateAll = false → C) : (consolidateLoop o c ls ets).PanicIf C := by
  induction ets with
  | nil => exact .pure _
  | cons e es ih =>
    obtain ⟨e, ts⟩ := e
    unfold consolidateLoop
    refine .bind (.lift fun ha => ?_) fun _ => .bind ?_ fun _ => ih fun ⟨x, hx, hx'⟩ => h ⟨x, .tail _ hx, hx'⟩
    · have := assert_pan ha
      simp only [Bool.or_eq_false_iff, beq_eq_false_iff_ne] at this
      exact h ⟨_, .head _, this.2⟩ this.1
    · clear ih h
      induction ts with
      | nil => exact .pure _
      | cons t ts ih =>
        unfold consolidateTargets
        refine .bind ?_ fun _ => ih
        unfold consolidateTarget
        exact .bind (.lift fun h => hc (corpusDir_pan h)) fun _ => .bind (.lift fun h => hc (crashesDir_pan h)) fun _ =>
          .bind (.lift fun h => hc (hangsDir_pan h)) fun _ => .bind (.lift fun h => hc (queueDir_pan h)) fun _ =>
          .bind (consolidateDir_pan _ _ _) fun _ => .bind (consolidateDir_pan _ _ _) fun _ =>
          consolidateDir_pan _ _ _

theorem consolidate_pan (o : Opts) (c : Ctx) (hc : NoDirs c → C) (ls : Lister) (ets : List (Exe × List Str))
    (h : (∀ e t, ets ≠ [(e, [t])]) → o.consolidateAll = false → C) : (consolidate o c ls ets).PanicIf C := by
  unfold consolidate
  refine .bind (.lift fun ha => ?_) fun _ => consolidateLoop_pan o c hc ls ets fun ⟨x, hx, hx'⟩ hn => h ?_ hn
  · have := assert_pan ha
    simp only [Bool.or_eq_false_iff, beq_eq_false_iff_ne] at this
    exact h (by rintro e t rfl; exact this.2 rfl) this.1
  · rintro e t rfl
    cases List.mem_singleton.mp hx
    exact hx' rfl

theorem resetLoop_pan (o : Opts) (c : Ctx) (hc : NoDirs c → C) (ets : List (Exe × List Str))
    (h : (∃ x ∈ ets, x.2.length ≠ 1) → o.resetAll = false → C) : (resetLoop o c ets).PanicIf C := by
  induction ets with
  | nil => exact .pure _
  | cons e es ih =>
    obtain ⟨e, ts⟩ := e
    unfold resetLoop
    refine .bind (.lift fun ha => ?_) fun _ => .bind ?_ fun _ => ih fun ⟨x, hx, hx'⟩ => h ⟨x, .tail _ hx, hx'⟩
    · have := assert_pan ha
      simp only [Bool.or_eq_false_iff, beq_eq_false_iff_ne] at this
      exact h ⟨_, .head _, this.2⟩ this.1
    · clear ih h
      induction ts with
      | nil => exact .pure _
      | cons t ts ih =>
        unfold resetTargets
        refine .bind ?_ fun _ => ih
        unfold resetTarget
        refine .bind (.lift fun h => hc (outputDir_pan h)) fun _ => .bind (pathExists_pan _) fun _ => ?_
        split
        · exact .pure _
        · exact removeDirAll_pan _

theorem reset_pan (o : Opts) (c : Ctx) (hc : NoDirs c → C) (ets : List (Exe × List Str))
    (h : (∀ e t, ets ≠ [(e, [t])]) → o.resetAll = false → C) : (reset o c ets).PanicIf C := by
  unfold reset
  refine .bind (.lift fun ha => ?_) fun _ => resetLoop_pan o c hc ets fun ⟨x, hx, hx'⟩ hn => h ?_ hn
  · have := assert_pan ha
    simp only [Bool.or_eq_false_iff, beq_eq_false_iff_ne] at this
    exact h (by rintro e t rfl; exact this.2 rfl) this.1
  · rintro e t rfl
    cases List.mem_singleton.mp hx
    exact hx' rfl

theorem storage_pan (o : Opts) (c : Ctx) (hc : NoDirs c → C) (ls : Lister) (ets : List (Exe × List Str))
    (h : (∀ e t, ets ≠ [(e, [t])]) → o.resetAll = false → C) : (storage o c ls ets).PanicIf C := by
  unfold storage
  split
  · split
    · next hca => exact .bind (consolidate_pan o c hc ls ets fun _ hn => absurd hca (by simp [hn])) fun _ => reset_pan o c hc ets h
    · exact reset_pan o c hc ets h
  · next hn =>
    have hr : o.resetAll = false := by
      cases hq : o.resetAll
      · rfl
      · simp [hq] at hn
    split
    · exact .bind (consolidate_pan o c hc ls ets fun h1 _ => h h1 hr) fun _ => reset_pan o c hc ets h
    · exact reset_pan o c hc ets h

/-! ## Preparing -/

theorem buildResult_pan {m : Metadata} {r : BuildRes} : buildResult m r ≠ .panic := by
  have h1 : ∀ id, package m id ≠ .panic := by intro id; unfold package; split <;> simp
  have h2 : ∀ ids, idsAndNames m ids ≠ .panic := by
    intro ids h
    induction ids with
    | nil => cases h
    | cons id ids ih =>
      unfold idsAndNames packageName at h
      rcases Out.bind_panic h with h | ⟨_, -, h⟩
      · rcases Out.bind_panic h with h | ⟨_, -, h⟩
        · exact h1 _ h
        · cases h
      · rcases Out.bind_panic h with h | ⟨_, -, h⟩
        · exact ih h
        · cases h
  have h3 : ∀ id n, packageDependency m id n ≠ .panic := by
    intro id n h
    unfold packageDependency at h
    split at h
    · cases h
    · split at h
      · cases h
      · rcases Out.bind_panic h with h | ⟨_, -, h⟩
        · exact h2 _ h
        · cases h
  have h4 : ∀ id, packageVersion m id ≠ .panic := by
    intro id h
    unfold packageVersion at h
    rcases Out.bind_panic h with h | ⟨_, -, h⟩
    · exact h1 _ h
    · cases h
  have h5 : ∀ id, testFuzzAndAflVersions m id ≠ .panic := by
    intro id h
    unfold testFuzzAndAflVersions at h
    rcases Out.bind_panic h with h | ⟨_, -, h⟩
    · exact h3 _ _ h
    · split at h
      · cases h
      · rcases Out.bind_panic h with h | ⟨_, -, h⟩
        · exact h3 _ _ h
        · rcases Out.bind_panic h with h | ⟨_, -, h⟩
          · exact h4 _ h
          · split at h
            · cases h
            · rcases Out.bind_panic h with h | ⟨_, -, h⟩
              · exact h4 _ h
              · cases h
  have h6 : ∀ ms, executablesOf m ms ≠ .panic := by
    intro ms
    induction ms with
    | nil => simp [executablesOf]
    | cons x ms ih =>
      intro h
      unfold executablesOf at h
      split at h
      · cases h
      · rcases Out.bind_panic h with h | ⟨_, -, h⟩
        · exact h5 _ h
        · rcases Out.bind_panic h with h | ⟨_, -, h⟩
          · simp_all
          · cases h
      · simp_all
  cases r with
  | startErr => simp [buildResult]
  | streamErr => simp [buildResult]
  | done msgs st =>
    rcases st with _ | _ | _
    · simp [buildResult]
    · simp [buildResult]
    · exact h6 _

theorem executableTargets_pan (run : Exe → Option Bytes) (es) : executableTargets run es ≠ .panic := by
  have h1 : ∀ ls, targetsLoop ls ≠ .panic := by
    intro ls
    induction ls with
    | nil => simp [targetsLoop]
    | cons l ls ih =>
      intro h
      unfold targetsLoop at h
      split at h
      · cases h
      · rcases Out.bind_panic h with h | ⟨_, -, h⟩
        · exact ih h
        · split at h <;> cases h
  have h2 : ∀ es, allTargets run es ≠ .panic := by
    intro es
    induction es with
    | nil => simp [allTargets]
    | cons e es ih =>
      intro h
      unfold allTargets at h
      rcases Out.bind_panic h with h | ⟨_, -, h⟩
      · unfold targets at h
        split at h
        · cases h
        · exact h1 _ h
      · rcases Out.bind_panic h with h | ⟨_, -, h⟩
        · exact ih h
        · cases h
  intro h
  unfold executableTargets at h
  rcases Out.bind_panic h with h | ⟨_, -, h⟩
  · exact h2 _ h
  · cases h

theorem checkVersions_pan (a b l) : checkVersions a b l ≠ .panic := by
  have h1 : ∀ d v, checkDependencyVersion d v ≠ .panic := by
    intro d v h
    unfold checkDependencyVersion at h
    repeat' split at h
    all_goals first | cases h | skip
    all_goals (rcases Out.bind_panic h with h | ⟨_, -, h⟩ <;> first | exact ensure_pan h | cases h)
  induction l with
  | nil => simp [checkVersions]
  | cons e es ih =>
    intro h
    unfold checkVersions at h
    rcases Out.bind_panic h with h | ⟨_, -, h⟩
    · exact h1 _ _ h
    · rcases Out.bind_panic h with h | ⟨_, -, h⟩
      · exact h1 _ _ h
      · exact ih h

theorem splitOnce_none (c : Char) (l : Str) : splitOnce c l = none ↔ c ∉ l := by
  induction l with
  | nil => simp [splitOnce]
  | cons x l ih =>
    unfold splitOnce
    split
    · next h => simp [h]
    · next h =>
      rw [Option.map_eq_none_iff, ih]
      simp [Ne.symm h]

theorem llvmEnvLines_pan (t n : Str) (ls : List Str) : llvmEnvLines t n ls = .panic ↔ ∃ l ∈ ls, '=' ∉ l := by
  induction ls with
  | nil => simp [llvmEnvLines]
  | cons l ls ih =>
    unfold llvmEnvLines llvmEnvLine
    cases hs : splitOnce '=' l with
    | none =>
      have := (splitOnce_none _ _).mp hs
      simp only [Out.panic_bind, true_iff]
      exact ⟨l, .head _, this⟩
    | some kv =>
      have hin : '=' ∈ l := by
        by_contra hn
        rw [(splitOnce_none _ _).mpr hn] at hs
        cases hs
      simp only [Out.ok_bind, List.mem_cons, exists_eq_or_imp, hin, not_true_eq_false, false_or]
      rw [← ih]
      cases llvmEnvLines t n ls <;> simp [Bind.bind, Out.bind]

theorem llvmEnvs_pan (o : Opts) (t n : Str) (y : Sys) : llvmEnvs o t n y.showEnv = .panic ↔ NoCoverageEnv o y := by
  unfold llvmEnvs NoCoverageEnv
  cases hc : o.coverage with
  | none => simp
  | some c =>
    cases hs : y.showEnv with
    | none => simp
    | some ls => simp [llvmEnvLines_pan]

theorem noAfl_iff (y : Sys) : Semver.cargoAflVersion y.aflOutput = none ↔ NoAflVersion y := by
  unfold NoAflVersion
  constructor
  · rintro h out ho ⟨v, h'⟩
    rw [ho, (C71_cargo_afl out v).mpr h'] at h
    cases h
  · intro h
    cases ho : y.aflOutput with
    | none => rfl
    | some out =>
      cases hv : Semver.cargoAflVersion (some out) with
      | none => rfl
      | some v => exact absurd ⟨v, (C71_cargo_afl out v).mp hv⟩ (h out ho)

theorem mustHave_pan {α} {x : Option α} : mustHave x = .panic ↔ x = none := by cases x <;> simp [mustHave]

theorem includes_not_both (o : Opts) : ¬ (includeCoverage o = true ∧ includeFuzzing o = true) := by
  rintro ⟨h1, h2⟩
  unfold includeCoverage at h1
  unfold includeFuzzing at h2
  simp [h1] at h2

theorem checkObjects_pan (o : Opts) : checkObjects o ≠ .panic := by
  intro h
  unfold checkObjects at h
  rcases Out.bind_panic h with h | ⟨_, -, h⟩
  · unfold checkCoverage at h
    split at h
    · exact ensure_pan h
    · cases h
  · unfold checkReplay at h
    split at h
    · exact ensure_pan h
    · cases h

theorem prepare_pan (o : Opts) (y : Sys) (h1 : NoAflVersion y → C) (h2 : NoMetadata o y → C) (h3 : NoCoverageEnv o y → C) :
    PanicIf C (prepare o y) := by
  have hd : optsTargetDirectory o y.ctx = .panic → C := fun h => by
    rcases targetDirectory_pan h with h | h
    · exact h2 (.inl h)
    · exact absurd h (includes_not_both o)
  unfold prepare gather
  refine .bind (.lift fun h => absurd h (checkObjects_pan o)) fun _ => .bind (.act _) fun _ =>
    .bind (.lift fun h => h1 ((noAfl_iff y).mp (mustHave_pan.mp h))) fun _ =>
    .bind (.lift hd) fun _ =>
    .bind (.lift fun h => h2 (.inr (mustHave_pan.mp h))) fun _ =>
    .bind (.lift fun h => h3 ((llvmEnvs_pan _ _ _ _).mp h)) fun _ => .bind ?_ fun _ => .bind ?_ fun _ =>
    .bind (.lift fun h => absurd h (checkVersions_pan _ _ _)) fun _ => .pure _
  · unfold build
    exact .bind (.lift hd) fun _ => .bind (.act _) fun _ => fun s h => absurd h buildResult_pan
  · exact fun s h => absurd h (executableTargets_pan _ _)

/-! ## Displaying and replaying -/

theorem runEntry_pan (lim : Nat) (y : Sys) (f a e p i) : PanicIf C (runEntry lim y f a e p i) := by
  unfold runEntry
  split
  · split
    · exact .pure _
    · exact .lift nofun
  · refine .bind (.harness _ _ _ _ _ _) fun r => ?_
    split
    · exact .lift nofun
    · exact .lift nofun
    · refine .bind (.act _) fun _ => ?_
      split
      · exact .lift nofun
      · exact .pure _
    · refine .bind (.act _) fun _ => ?_
      split
      · exact .lift nofun
      · refine .bind (.act _) fun _ => ?_
        split
        · exact .lift nofun
        · exact .pure _
    · refine .bind (.act _) fun _ => ?_
      split
      · exact .lift nofun
      · exact .lift nofun

theorem entriesLoop_pan (lim : Nat) (y : Sys) (f a e d ns se) : PanicIf C (entriesLoop lim y f a e d ns se) := by
  induction ns generalizing se with
  | nil => exact .pure _
  | cons n ns ih =>
    unfold entriesLoop
    refine .bind (.io _ (openEntry_pan _)) fun input => ?_
    split
    · exact ih _
    · refine .bind (runEntry_pan _ _ _ _ _ _ _) fun x => ?_
      obtain ⟨b, st⟩ := x
      unfold reportEntry
      exact .bind (.bind (.act _) fun _ => .pure _) fun _ => ih _

/-- Something was seen only if there was an entry. -/
def SeenRight (se : Seen) : Prop := se.nonempty = true ∨ se = {}

theorem entriesLoop_seen (lim : Nat) (y : Sys) (f a e d) : ∀ (ns : List Str) (se : Seen) (s s' : RSt) (se' : Seen),
    SeenRight se → entriesLoop lim y f a e d ns se s = (.ok se', s') → SeenRight se' := by
  intro ns
  induction ns with
  | nil => intro se s s' se' h hr; cases hr; exact h
  | cons n ns ih =>
    intro se s s' se' h hr
    unfold entriesLoop at hr
    obtain ⟨input, s1, -, hr⟩ := Rm.bind_eq_ok hr
    split at hr
    · exact ih _ _ _ _ h hr
    · obtain ⟨⟨b, st⟩, s2, -, hr⟩ := Rm.bind_eq_ok hr
      obtain ⟨se1, s3, h1, hr⟩ := Rm.bind_eq_ok hr
      refine ih _ _ _ _ (.inl ?_) hr
      unfold reportEntry at h1
      obtain ⟨_, s4, -, h1⟩ := Rm.bind_eq_ok h1
      cases h1
      rfl

theorem forEachEntry_pan (o : Opts) (y : Sys) (e t f d) : PanicIf C (forEachEntry o y e t f d) := by
  unfold forEachEntry
  refine .bind (.io _ (pathExists_pan _)) fun _ => .bind (.lift fun h => absurd h ensure_pan) fun _ =>
    .bind (.io _ (readDir_pan _ _)) fun names => .bindOk (entriesLoop_pan _ _ _ _ _ _ _ _) fun se s s' hse => ?_
  have hr := entriesLoop_seen _ _ _ _ _ _ _ _ _ _ _ (.inr rfl) hse
  unfold closing
  refine .bind (.lift fun h => ?_) fun _ => ?_
  · have := assert_pan h
    rcases hr with hr | hr
    · simp [hr] at this
    · subst hr; simp at this
  · split
    · exact .act _
    · split
      · exact .act _
      · split
        · exact .act _
        · exact .pure _

theorem widthSearch_ascii_ok (vis : Bytes → Nat) (b : Bytes) (hb : Ascii b) (width : Nat) : ∀ (n min max : Nat), max - min = n →
    min ≤ max → max ≤ b.length → ∃ r ≤ b.length, widthSearch vis b width min max = .ok r := by
  intro n
  induction n using Nat.strongRecOn with
  | ind n ih =>
    intro min max hn h1 h2
    rw [widthSearch]
    split
    · simp only
      rw [sliceTo_ascii hb (by omega)]
      simp only
      split
      · exact ih _ (by omega) _ _ rfl (by omega) h2
      · exact ih _ (by omega) _ _ rfl (by omega) (by omega)
    · rw [if_pos (by omega)]
      exact ⟨_, by omega, rfl⟩

theorem headingText_pan {y : Sys} {t : Str} (h : headingText y t = .panic) : ¬ Ascii (utf8Encode t) := by
  intro ha
  unfold headingText dividerWithWidth at h
  simp only at h
  split at h
  · have hb : Ascii (utf8Encode t ++ [32]) := by
      intro x hx
      rcases List.mem_append.mp hx with hx | hx
      · exact ha x hx
      · cases List.mem_singleton.mp hx; decide
    unfold prefixWithWidth at h
    obtain ⟨r, h1, h2⟩ := widthSearch_ascii_ok y.vis _ hb (y.columns.getD ((utf8Encode t).length + 4)) _ 0 _ rfl (by omega) (Nat.le_refl _)
    rw [h2, Out.ok_bind, sliceTo_ascii hb h1] at h
    cases h
  · cases h

theorem replayLoop_pan (o : Opts) (y : Sys) (m : Bool) (l : List (Exe × Str)) (hd : NoDirs y.ctx → C)
    (hh : m = true → ∀ x ∈ l, ¬ Ascii (utf8Encode x.2) → C) : PanicIf C (replayLoop o y m l) := by
  induction l with
  | nil => exact .pure _
  | cons x r ih =>
    obtain ⟨e, t⟩ := x
    unfold replayLoop printHeading
    exact .bind (.when fun hm => .bind (.lift fun h => hh hm _ (.head _) (headingText_pan h)) fun _ => .act _) fun _ =>
      .bind (.lift fun h => hd (chooseFlagsAndDir_pan h)) fun _ =>
      .bind (forEachEntry_pan _ _ _ _ _ _) fun _ => ih fun hm x hx => hh hm x (.tail _ hx)

theorem mustSucceed_pan (y : Sys) (c) : PanicIf C (mustSucceed y c) := by
  unfold mustSucceed
  refine .bind (.command _ _) fun r => ?_
  split
  · exact .lift nofun
  · exact .lift fun h => absurd h ensure_pan

theorem command_pan {l : List (Str × Str)} {p : Str} {a : List Str} : command l (p :: a) ≠ .panic := nofun

theorem flatten_pan (o : Opts) (ets) : flattenExecutableTargets o ets ≠ .panic := by
  intro h
  unfold flattenExecutableTargets at h
  rcases Out.bind_panic h with h | ⟨_, -, h⟩
  · exact ensure_pan h
  · cases h

theorem replayAll_pan (o : Opts) (y : Sys) (llvm ets) (hd : NoDirs y.ctx → C)
    (hh : 1 < (pairs ets).length → ∀ x ∈ pairs ets, ¬ Ascii (utf8Encode x.2) → C) : PanicIf C (replayAll o y llvm ets) := by
  unfold replayAll coverageClean coverageReport
  refine .bind (.when fun _ => .bind (.lift fun h => absurd h command_pan) fun _ => mustSucceed_pan _ _) fun _ =>
    .bindOk (.lift fun h => absurd h (flatten_pan _ _)) fun flat s s' hf => ?_
  simp only [Rm.lift_run, Prod.mk.injEq] at hf
  obtain ⟨rfl, -⟩ := flatten_eq hf.1
  refine .bind (replayLoop_pan _ _ _ _ hd fun hm => hh (by simpa using hm)) fun _ =>
    .when fun _ => .bind ?_ fun _ => .bind (.lift fun h => absurd h command_pan) fun _ => mustSucceed_pan _ _
  unfold coverageWarning
  split
  · exact .lift nofun
  · exact .when fun _ => .act _

/-! ## Fuzzing -/

theorem fuzzCommand_pan {ch : Bool} {o : Opts} {c : Ctx} {l cfg e t} (h : fuzzCommand ch o c l cfg e t = .panic) :
    NoDirs c ∨ ch = true ∧ ∃ n, o.timeout = some n ∧ 2 ^ 64 ≤ n * 1000 := by
  unfold fuzzCommand at h
  rcases Out.bind_panic h with h | ⟨_, -, h⟩
  · exact .inl (corpusDir_pan h)
  · rcases Out.bind_panic h with h | ⟨_, -, h⟩
    · exact .inl (outputDir_pan h)
    · rcases Out.bind_panic h with h | ⟨_, -, h⟩
      · unfold timeoutArgs at h
        split at h
        · next n hn =>
          rcases Out.bind_panic h with h | ⟨_, -, h⟩
          · unfold mulU64 at h
            split at h
            · cases h
            · next hlt =>
              split at h
              · next hc => exact .inr ⟨hc, n, hn, by rw [show millisPerSec = 1000 from rfl] at hlt; omega⟩
              · cases h
          · cases h
        · cases h
      · rcases Out.bind_panic h with h | ⟨_, -, h⟩
        · exact absurd h command_pan
        · cases h

theorem autoGenerateCorpora_pan (y : Sys) (llvm ets) (hd : NoDirs y.ctx → C) : PanicIf C (autoGenerateCorpora y llvm ets) := by
  unfold autoGenerateCorpora
  refine .bind ?_ fun _ => ?_
  · generalize ([] : List Str) = errs
    induction ets generalizing errs with
    | nil => exact .pure _
    | cons x r ih =>
      obtain ⟨e, t⟩ := x
      unfold autoGenerateLoop
      refine .bind (.lift fun h => hd (corpusDir_pan h)) fun _ => .bind (.io _ (pathExists_pan _)) fun _ => ?_
      split
      · exact ih _
      · refine .bind (.act _) fun _ => .bind ?_ fun e => ?_
        · unfold autoGenerateCorpus autoGenerateCommand
          refine .bind (.lift fun h => ?_) fun _ => .bind (.command _ _) fun _ => ?_
          · rcases Out.bind_panic h with h | ⟨_, -, h⟩
            · exact absurd h command_pan
            · cases h
          · split <;> exact .pure _
        · split
          · exact ih _
          · refine .bind (.io _ (pathExists_pan _)) fun _ => ?_
            split
            · exact ih _
            · exact .bind (.act _) fun _ => ih _
  · split
    · exact .pure _
    · exact .lift nofun

theorem fuzz_pan (o : Opts) (y : Sys) (llvm) (ets : List (Exe × Str)) (hne : ets ≠ []) (hw : Wants o .fuzzing)
    (hq : o.exitCode = true → o.noUi = true) (hd : NoDirs y.ctx → C) (h : PanicsOn o y ets → C) : PanicIf C (fuzz o y llvm ets) := by
  unfold fuzz
  refine .bind (.lift fun ha => ?_) fun _ => .bind (autoGenerateCorpora_pan _ _ _ hd) fun _ => ?_
  · have := assert_pan ha
    cases hw with
    | fuzzing _ _ _ h4 => exact absurd (show o.coverage.isNone = true by unfold AsksReplay at h4; simp at h4 ⊢; tauto) (by simp [this])
  · split
    · next hx =>
      unfold fuzzCommandIO
      refine .bind (.io _ (.bind (.lift fun h => hd (outputDir_pan h)) fun _ => .bind (.ignore (createDirAll_pan _)) fun _ =>
        .lift fun hp => ?_)) fun _ => .bind (.command _ _) fun r => ?_
      · rcases fuzzCommand_pan hp with hp | ⟨h1, n, h2, h3⟩
        · exact hd hp
        · exact h (.timeout hw hx rfl h1 h2 h3)
      · split
        · exact .lift nofun
        · exact .lift fun h => absurd h ensure_pan
    · rename_i ets' _ _ hx
      unfold fuzzMany
      refine .bindOk (.lift fun h => ?_) fun k s s' hk => .bind (.act _) fun _ => .lift fun hl => ?_
      · unfold fuzzSetup at h
        rcases Out.bind_panic h with h | ⟨_, -, h⟩
        · exact absurd h ensure_pan
        · dsimp only at h
          split at h
          · rcases Out.bind_panic h with h | ⟨_, -, h⟩
            · exact absurd h ensure_pan
            · cases h
          · cases h
      · simp only [Rm.lift_run, Prod.mk.injEq] at hk
        have hk := hk.1
        unfold fuzzSetup ensure at hk
        simp only [decide_eq_true_eq] at hk
        split at hk
        · next hc =>
          rw [Out.ok_bind] at hk
          have hkk : k = ⟨ets'.map Prod.snd, cpusToUse o y.numCpus, o.noUi, o.exitCode, y.vis⟩ := by
            split at hk
            · split at hk
              · cases hk; rfl
              · cases hk
            · cases hk; rfl
          subst hkk
          refine h (.loop hw ?_ hc ?_)
          · clear hl
            cases he : o.exitCode with
            | true => exact .inl rfl
            | false =>
              right
              match ets', hne, hx with
              | [(e, t)], _, hx => exact absurd rfl (hx e t he)
              | _ :: _ :: _, _, _ => simp
          · rw [show (o.noUi || o.exitCode) = o.noUi by cases h1 : o.noUi <;> cases h2 : o.exitCode <;> simp_all]
            exact hl
        · cases hk

/-! ## The whole command -/

theorem selected_nonempty {o : Opts} {f exes ets} (h : executableTargets f exes = .ok ets) :
    ∀ x ∈ selectTargets o ets, x.2 ≠ [] := by
  unfold executableTargets at h
  obtain ⟨all, -, h⟩ : ∃ all, allTargets f exes = .ok all ∧ _ := by
    cases ha : allTargets f exes with
    | ok all => rw [ha, Out.ok_bind] at h; exact ⟨all, rfl, h⟩
    | _ => rw [ha] at h; cases h
  cases h
  unfold selectTargets
  intro x hx
  split at hx
  · unfold filterExecutableTargets at hx
    obtain ⟨⟨e, ts⟩, -, h⟩ := List.mem_filterMap.mp hx
    dsimp only at h
    split at h
    · cases h
    · next hn => cases h; simpa using hn
  · simpa using (List.mem_filter.mp hx).2

theorem single_of_pairs {ets : List (Exe × List Str)} (h : ∀ x ∈ ets, x.2 ≠ []) (h1 : (pairs ets).length = 1) :
    ∃ e t, ets = [(e, [t])] := by
  match ets, h, h1 with
  | [(e, [t])], _, _ => exact ⟨e, t, rfl⟩
  | (e, []) :: r, h, _ => exact absurd rfl (h _ (.head _))
  | [(e, t :: t' :: ts)], _, h1 => simp [pairs] at h1
  | (e, t :: ts) :: (e', []) :: r, h, _ => exact absurd rfl (h _ (.tail _ (.head _)))
  | (e, t :: ts) :: (e', t' :: ts') :: r, _, h1 => simp [pairs] at h1

theorem dispatch_pan (o : Opts) (y : Sys) (llvm ets) (hs : ∀ x ∈ ets, x.2 ≠ [])
    (hq : o.exitCode = true → o.noUi = true) (hd : NoDirs y.ctx → C)
    (h : PanicsOn o y (pairs ets) → C) : PanicIf C (dispatch o y llvm ets) := by
  obtain ⟨m, hm⟩ := wants_exists o
  rw [dispatch_eq hm]
  cases m with
  | listing => exact .act _
  | building => exact .pure _
  | storing =>
    unfold storageAll
    refine .bind (.when fun _ => .act _) fun _ => .bind (.act _) fun _ =>
      .io _ (storage_pan _ _ hd _ _ fun hn hr => h (.storing hm hr fun h1 => ?_))
    obtain ⟨e, t, rfl⟩ := single_of_pairs hs h1
    exact hn e t rfl
  | replaying => exact replayAll_pan _ _ _ _ hd fun h1 x hx hx' => h (.heading hm h1 hx hx')
  | fuzzing =>
    refine .bindOk (.lift fun h => absurd h (flatten_pan _ _)) fun flat s s' hf => ?_
    simp only [Rm.lift_run, Prod.mk.injEq] at hf
    obtain ⟨rfl, hne⟩ := flatten_eq hf.1
    exact fuzz_pan _ _ _ _ hne hm hq hd h

theorem panicsOn_effective {o : Opts} {y : Sys} {sel} (h : PanicsOn (effectiveOpts o) y sel) : PanicsOn o y sel := by
  have e1 : (effectiveOpts o).resetAll = o.resetAll := by unfold effectiveOpts; split <;> rfl
  have e2 : (effectiveOpts o).exitCode = o.exitCode := by unfold effectiveOpts; split <;> rfl
  have e3 : (effectiveOpts o).timeout = o.timeout := by unfold effectiveOpts; split <;> rfl
  cases h with
  | storing h1 h2 h3 => exact .storing (wants_effective.mp h1) (e1 ▸ h2) h3
  | heading h1 h2 h3 h4 => exact .heading (wants_effective.mp h1) h2 h3 h4
  | timeout h1 h2 h3 h4 h5 h6 => exact .timeout (wants_effective.mp h1) (e2 ▸ h2) h3 h4 (e3 ▸ h5) h6
  | loop h1 h2 h3 h4 =>
    have e4 : ((effectiveOpts o).noUi || (effectiveOpts o).exitCode) = (o.noUi || o.exitCode) := by
      rw [e2]
      unfold effectiveOpts
      split
      · next h => simp [h]
      · rfl
    rw [e4, e2] at h4
    exact .loop (wants_effective.mp h1) (e2 ▸ h2) h3 h4

theorem run_panic_iff (o : Opts) (y : Sys) (s : RSt) :
    (run o y s).1 = .panic ↔ (runWithoutExitCode (effectiveOpts o) y s).1 = .panic := by
  unfold run
  split
  · next e s' he => rw [he]; split <;> simp
  · rfl

theorem selectTargets_effective (o : Opts) (ets) : selectTargets (effectiveOpts o) ets = selectTargets o ets := by
  unfold effectiveOpts; split <;> rfl

/-- **C104 (causes).** The command panics only if the version of cargo-afl cannot be determined, `cargo metadata` fails,
coverage is asked for and the environment for it cannot be determined – all this before anything is built –, or for a
reason that has to do with the targets selected: findings are to be removed without `--reset-all` and not exactly one
target is selected; one of several targets replayed has a name that is not ASCII; the timeout does not fit in
milliseconds; or the fuzzing loop panics. In particular no panic comes from the file system, from failing commands, from
what harnesses do or print, or from the contents of the files of the targets. -/
theorem C104_causes (o : Opts) (y : Sys) (s : RSt) (h : (run o y s).1 = .panic) :
    NoAflVersion y ∨ NoMetadata o y ∨ NoCoverageEnv o y ∨
    ∃ exes ets, buildResult y.metadata (y.build s.world.fs).1 = .ok exes ∧ executableTargets y.listing exes = .ok ets ∧
      PanicsOn o y (pairs (selectTargets o ets)) := by
  rw [run_panic_iff] at h
  have e1 : NoMetadata (effectiveOpts o) y → NoMetadata o y := by unfold effectiveOpts; split <;> exact id
  have e2 : NoCoverageEnv (effectiveOpts o) y → NoCoverageEnv o y := by unfold effectiveOpts; split <;> exact id
  unfold runWithoutExitCode at h
  have hp := prepare_pan (C := NoAflVersion y ∨ NoMetadata o y ∨ NoCoverageEnv o y ∨
    ∃ exes ets, buildResult y.metadata (y.build s.world.fs).1 = .ok exes ∧ executableTargets y.listing exes = .ok ets ∧
      PanicsOn o y (pairs (selectTargets o ets))) (effectiveOpts o) y .inl (fun h => .inr (.inl (e1 h)))
      (fun h => .inr (.inr (.inl (e2 h)))) s
  rw [Rm.bind_def] at h
  split at h
  · next x s' hx =>
    obtain ⟨llvm, sel⟩ := x
    obtain ⟨cafl, exes, ets, -, hb, he, hsel, -⟩ := prepare_ok hx
    simp only at hsel
    subst hsel
    refine dispatch_pan (effectiveOpts o) y llvm _ (selected_nonempty he)
      (by unfold effectiveOpts; split <;> simp_all) (fun h => .inr (.inl (.inl h))) (fun hq => ?_) _ h
    rw [selectTargets_effective] at hq
    exact .inr (.inr (.inr ⟨exes, ets, hb, he, panicsOn_effective hq⟩))
  · cases h
  · next hx => rw [hx] at hp; exact hp rfl
  · cases h
  · cases h

theorem gather_panics {o : Opts} {y : Sys} (h : NoAflVersion y ∨ NoMetadata o y ∨ NoCoverageEnv o y) (s : RSt) :
    gather o y s = (.panic, s) := by
  unfold gather
  cases ha : Semver.cargoAflVersion y.aflOutput with
  | none => rfl
  | some v =>
    have h1 : ¬ NoAflVersion y := fun h => by rw [(noAfl_iff y).mpr h] at ha; cases ha
    rw [mustHave, Rm.lift_ok_bind]
    unfold optsTargetDirectory targetDirectory
    rw [show assert (!(includeCoverage o && includeFuzzing o)) = .ok () from by
      unfold assert; rw [if_pos]; have := includes_not_both o; cases h1 : includeCoverage o <;> cases h2 : includeFuzzing o <;> simp_all, Out.ok_bind]
    cases hd : y.ctx.metadata (y.ctx.env.var c%"TEST_FUZZ_MANIFEST_PATH") with
    | none => rfl
    | some d =>
      rw [Rm.lift_ok_bind]
      cases hm : y.ctx.metadata o.manifestPath with
      | none => rfl
      | some ws =>
        rw [mustHave, Rm.lift_ok_bind]
        have h2 : ¬ NoMetadata o y := by rintro (h | h) <;> simp_all
        rw [(llvmEnvs_pan _ _ _ _).mpr ((h.resolve_left h1).resolve_left h2)]
        rfl

/-- **C104 (early causes).** The first three causes suffice, whatever mode is asked for – even `--list` or `--no-run` –:
if the objects given are valid, the command panics, nothing has been built, and no file has changed. -/
theorem C104_early (o : Opts) (hv : ObjectsValid o) (y : Sys) (s : RSt) (h : NoAflVersion y ∨ NoMetadata o y ∨ NoCoverageEnv o y) :
    run o y s = (.panic, { s with acts := s.acts ++ [.aflVersion] }) := by
  have key : runWithoutExitCode (effectiveOpts o) y s = (.panic, { s with acts := s.acts ++ [.aflVersion] }) := by
    have hc : checkObjects (effectiveOpts o) = .ok () := by
      have : checkObjects (effectiveOpts o) = checkObjects o := by unfold effectiveOpts; split <;> rfl
      rw [this]
      exact (checkObjects_ok o).mpr hv
    have h' : NoAflVersion y ∨ NoMetadata (effectiveOpts o) y ∨ NoCoverageEnv (effectiveOpts o) y := by
      unfold effectiveOpts; split <;> exact h
    unfold runWithoutExitCode prepare
    have hp : (Rm.lift (checkObjects (effectiveOpts o)) >>= fun _ => Rm.act .aflVersion >>= fun _ => gather (effectiveOpts o) y) s =
        (.panic, { s with acts := s.acts ++ [.aflVersion] }) := by
      rw [hc, Rm.lift_ok_bind, Rm.bind_ok (Rm.act_run _ _)]
      exact gather_panics h' _
    rw [Rm.bind_def, hp]
  unfold run
  rw [key]

/-- **C104 (loop).** Without the terminal interface the fuzzing loop does not panic, for any number of targets and
processors and whatever the fuzzers do; with it, only drawing panics. -/
theorem C104_loop (k : FCfg) (hk : 1 ≤ k.nCpus) (h : LoopResult k .panic) :
    k.noUi = false ∧ ∃ (s : FState) (inp : Inp), Reach k s ∧ refresh k.vis false inp.term s.nChildren (shown k s) = .panic := by
  cases h with
  | @panic s inp hr hv hp =>
    have hd : refreshState k inp.term s = .panic := by
      by_contra hd
      exact C35_loop_does_not_panic k hk s hr inp hv hd hp
    unfold refreshState at hd
    have hd' : refresh k.vis k.noUi inp.term s.nChildren (shown k s) = .panic := by
      rcases Out.bind_panic hd with h | ⟨_, -, h⟩
      · exact h
      · cases h
    cases hn : k.noUi with
    | true =>
      rw [hn] at hd'
      unfold refresh at hd'
      simp at hd'
    | false =>
      rw [hn] at hd'
      exact ⟨rfl, s, inp, hr, hd'⟩

/-- **C104 (safe uses).** If the version of cargo-afl, the metadata and – for coverage – the environment can be determined,
if the storage options are used with `--reset-all` or for exactly one target, if the timeout fits in milliseconds, if names of
targets are ASCII, and if the terminal interface is not used, the command does not panic, whatever is on disk, whatever
commands and harnesses do, and whatever fuzzers do. -/
theorem C104_safe (o : Opts) (y : Sys) (hloop : ∀ k, LoopResult k (y.loop k)) (s : RSt)
    (h1 : ¬ NoAflVersion y) (h2 : ¬ NoMetadata o y) (h3 : ¬ NoCoverageEnv o y)
    (h4 : AsksStorage o → o.resetAll = true ∨ ∀ exes ets, buildResult y.metadata (y.build s.world.fs).1 = .ok exes →
      executableTargets y.listing exes = .ok ets → (pairs (selectTargets o ets)).length = 1) (h5 : ∀ n, o.timeout = some n → n * 1000 < 2 ^ 64)
    (h6 : o.noUi = true ∨ o.exitCode = true)
    (h7 : ∀ exes ets, buildResult y.metadata (y.build s.world.fs).1 = .ok exes → executableTargets y.listing exes = .ok ets →
      ∀ x ∈ pairs (selectTargets o ets), Ascii (utf8Encode x.2)) : (run o y s).1 ≠ .panic := by
  intro h
  rcases C104_causes o y s h with h | h | h | ⟨exes, ets, hb, he, h⟩
  · exact h1 h
  · exact h2 h
  · exact h3 h
  · cases h with
    | storing hw hr hn =>
      cases hw with
      | storing _ _ hs =>
        rcases h4 hs with h | h
        · rw [h] at hr; cases hr
        · exact hn (h exes ets hb he)
    | heading _ _ hx hn => exact hn (h7 exes ets hb he _ hx)
    | timeout _ _ _ _ ht hn => have := h5 _ ht; omega
    | loop _ _ hn hp =>
      have := (C104_loop _ hn (hp ▸ hloop _)).1
      simp only [Bool.or_eq_false_iff] at this
      rcases h6 with h | h
      · rw [h] at this; exact absurd this.1 (by simp)
      · rw [h] at this; exact absurd this.2 (by simp)

end

/-! ## Cases -/

namespace PanicDemo

open Demo

/-- The loop if no fuzzer can be started. -/
def noStart (k : FCfg) : Out Unit :=
  match iterate k ⟨none, false, none⟩ (FState.init k) with
  | .ok _ => .ok ()
  | .err e => .err e
  | .panic => .panic
  | .exit c => .exit c
  | .crash => .crash

/-- Every configuration has a result, so systems as in `C104_safe` exist. -/
theorem noStart_result (k : FCfg) : LoopResult k (noStart k) := by
  have key : iterate k ⟨none, false, none⟩ (FState.init k) = .panic ∨
      ∃ e, iterate k ⟨none, false, none⟩ (FState.init k) = .err e := by
    unfold iterate refreshState
    cases hn : k.noUi with
    | false => exact .inl (by simp [refresh, Bind.bind, Out.bind])
    | true =>
      simp only [refresh, if_true, Out.ok_bind]
      split
      · exact .inr ⟨_, rfl⟩
      · next h1 =>
        have hk : 0 < k.n := by
          simp only [FState.init, List.length_nil] at h1
          omega
        have hp : putBuffers (FState.init k).children ((shown k (FState.init k)).map Prod.snd) = List.replicate k.n none := by
          have : ∀ n bs, putBuffers (List.replicate n none) bs = List.replicate n none := by
            intro n bs
            induction n with
            | zero => rfl
            | succ n ih => rw [List.replicate_succ, putBuffers, ih]
          exact this _ _
        rw [hp]
        split
        · right
          refine ⟨c%"Could not spawn", ?_⟩
          unfold schedule
          rw [if_neg (by omega)]
          simp [FState.init, hk, assert, Bind.bind, Out.bind]
        · next hw =>
          left
          have : k.sufficient = false := by
            unfold wantsTask at hw
            simp only [FState.init, hk, decide_true, Bool.true_or, Bool.and_true] at hw
            have hw : ¬ 0 < k.nCpus := fun h => hw (decide_eq_true h)
            unfold FCfg.sufficient
            simp only [decide_eq_false_iff_not]
            omega
          simp [FState.init, this, assert, Bind.bind, Out.bind]
  unfold noStart
  rcases key with h | ⟨e, h⟩
  · rw [h]; exact .panic .init (fun _ h => by cases h) h
  · rw [h]; exact .err .init h

def psys : Sys := { sys2 with loop := noStart }

/-- Early: the version of cargo-afl cannot be determined; not even a list of targets is printed. -/
example : ObjectsValid { opts with list := true } ∧ NoAflVersion { sys with aflOutput := some c%"error: no such command" } ∧
    run { opts with list := true } { sys with aflOutput := some c%"error: no such command" } start =
      (.panic, { start with acts := [.aflVersion] }) := by
  have hv : ObjectsValid { opts with list := true } := ⟨fun _ h => (by cases h), fun _ h => (by cases h)⟩
  have hn : NoAflVersion { sys with aflOutput := some c%"error: no such command" } := (noAfl_iff _).mp (by decide +kernel)
  exact ⟨hv, hn, C104_early _ hv _ _ (.inl hn)⟩

/-- Early: a line of the environment for coverage is not an assignment. -/
example : NoCoverageEnv { opts with coverage := some .corpus } { sys with showEnv := some [c%"A=1", c%"info: using"] } :=
  ⟨by decide, fun ls h => by cases h; exact ⟨c%"info: using", by decide +kernel, by decide +kernel⟩⟩

/-- Each of the other causes, with two targets (`a` and `b`) or one of them. -/
example : (run { opts with reset := true } sys2 ⟨⟨fs2, 0⟩, []⟩).1 = .panic ∧
    PanicsOn { opts with reset := true } sys2 [(exe, c%"a"), (exe, c%"b")] :=
  ⟨by decide +kernel, .storing (.storing rfl rfl (by unfold AsksStorage; simp)) rfl (by decide)⟩

/-- A name outside ASCII, where the terminal is too narrow for it. -/
example : let y := { sys2 with columns := some 2, listing := fun _ => some (utf8Encode c%"é_fuzz__::entry: test\nb_fuzz__::entry: test\n") }
    (run { opts with replay := some .corpus } y ⟨⟨fs2, 0⟩, []⟩).1 = .panic ∧
    PanicsOn { opts with replay := some .corpus } y [(exe, c%"é"), (exe, c%"b")] :=
  ⟨by decide +kernel, .heading (.replaying rfl rfl (by unfold AsksStorage; simp [opts]) (by unfold AsksReplay; simp)) (by decide)
    (List.mem_cons_self ..) (fun h => absurd (h 0xC3 (by decide +kernel)) (by decide))⟩

example : let o := { opts with ztarget := some c%"b", timeout := some (2 ^ 63) }
    (run o sys2 ⟨⟨fs2, 0⟩, []⟩).1 = .panic ∧ PanicsOn o sys2 [(exe, c%"b")] :=
  ⟨by decide +kernel, .timeout (.fuzzing rfl rfl (by unfold AsksStorage; simp [opts]) (by unfold AsksReplay; simp [opts])) rfl rfl rfl rfl
    (by decide)⟩

/-- Without a terminal the loop panics when it draws. -/
example : (run opts psys ⟨⟨fs2, 0⟩, []⟩).1 = .panic ∧ PanicsOn opts psys [(exe, c%"a"), (exe, c%"b")] :=
  ⟨by decide +kernel, .loop (n := 3) (.fuzzing rfl rfl (by unfold AsksStorage; simp [opts]) (by unfold AsksReplay; simp [opts])) (.inr (by decide))
    (by decide) (by decide +kernel)⟩

/-- A safe use: both targets are fuzzed without the terminal interface; that no fuzzer can be started is an error. -/
example : (run { opts with noUi := true } psys ⟨⟨fs2, 0⟩, []⟩).1 = .err c%"Could not spawn" ∧
    (run { opts with noUi := true } psys ⟨⟨fs2, 0⟩, []⟩).1 ≠ .panic := by
  refine ⟨by decide +kernel, C104_safe _ psys noStart_result _ (fun h => ?_) (fun h => ?_) (fun h => ?_) (fun h => ?_) (fun n h => ?_)
    (.inl rfl) fun exes ets hb he => ?_⟩
  · have := (noAfl_iff psys).mpr h
    revert this
    decide +kernel
  · rcases h with h | h <;> cases h
  · exact h.1 rfl
  · exact absurd h (by unfold AsksStorage; simp [opts])
  · cases h
  · have h1 : buildResult psys.metadata (psys.build fs2).1 = .ok [exe] := by decide +kernel
    have hb' : buildResult psys.metadata (psys.build fs2).1 = .ok exes := hb
    rw [h1] at hb'
    cases hb'
    have h2 : executableTargets psys.listing [exe] = .ok [(exe, [c%"a", c%"b"])] := by decide +kernel
    rw [h2] at he
    cases he
    have h3 : ∀ x ∈ [(exe, c%"a"), (exe, c%"b")], ∀ b ∈ utf8Encode x.2, b.toNat < 0x80 := by decide +kernel
    exact h3

end PanicDemo

end TF
