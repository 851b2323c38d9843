import Verif.Spec.Modes
import Verif.Props.EndToEnd
import Verif.Props.RunListed
import Verif.Props.SemverRun
import Verif.Props.Storage

/-!
# C72: what the command does is decided by the options; C32 for the whole command
-/

namespace TF

open Spec

/-! ## The modes -/

theorem wants_exists (o : Opts) : ∃ m, Wants o m := by
  by_cases h1 : o.list = true
  · exact ⟨_, .listing h1⟩
  · have h1 : o.list = false := by simpa using h1
    by_cases h2 : o.noRun = true
    · exact ⟨_, .building h1 h2⟩
    · have h2 : o.noRun = false := by simpa using h2
      by_cases h3 : AsksStorage o
      · exact ⟨_, .storing h1 h2 h3⟩
      · by_cases h4 : AsksReplay o
        · exact ⟨_, .replaying h1 h2 h3 h4⟩
        · exact ⟨_, .fuzzing h1 h2 h3 h4⟩

theorem wants_unique {o : Opts} {m m' : Mode} (h : Wants o m) (h' : Wants o m') : m = m' := by
  cases h <;> cases h' <;> first | rfl | simp_all

theorem wants_effective {o : Opts} {m : Mode} : Wants (effectiveOpts o) m ↔ Wants o m := by
  unfold effectiveOpts
  split
  · constructor
    · rintro (h | ⟨h1, h2⟩ | ⟨h1, h2, h3⟩ | ⟨h1, h2, h3, h4⟩ | ⟨h1, h2, h3, h4⟩)
      · exact .listing h
      · exact .building h1 h2
      · exact .storing h1 h2 h3
      · exact .replaying h1 h2 h3 h4
      · exact .fuzzing h1 h2 h3 h4
    · rintro (h | ⟨h1, h2⟩ | ⟨h1, h2, h3⟩ | ⟨h1, h2, h3, h4⟩ | ⟨h1, h2, h3, h4⟩)
      · exact .listing h
      · exact .building h1 h2
      · exact .storing h1 h2 h3
      · exact .replaying h1 h2 h3 h4
      · exact .fuzzing h1 h2 h3 h4
  · rfl

theorem belongs_effective {o : Opts} {m : Mode} {a : Act} (h : Belongs (effectiveOpts o) m a) : Belongs o m a := by
  unfold effectiveOpts at h
  split at h
  · cases h
    case consolidate h => exact .consolidate h
    case coverage h1 h2 h3 => exact .coverage h1 h2 h3
    all_goals constructor
  · exact h

/-- The part of `dispatch` for each mode. -/
theorem dispatch_eq {o : Opts} {m : Mode} (h : Wants o m) (y : Sys) (llvm ets) :
    dispatch o y llvm ets = match m with
      | .listing => Rm.act (.printTargets ets)
      | .building => pure ()
      | .storing => storageAll o y ets
      | .replaying => replayAll o y llvm ets
      | .fuzzing => Rm.lift (flattenExecutableTargets o ets) >>= fun flat => fuzz o y llvm flat := by
  unfold dispatch
  cases h with
  | listing h => simp [h]
  | building h1 h2 => simp [h1, h2]
  | storing h1 h2 h3 =>
    simp only [h1, h2, Bool.false_eq_true, if_false]
    rw [if_pos]
    unfold AsksStorage at h3
    simp only [Bool.or_eq_true]
    tauto
  | replaying h1 h2 h3 h4 =>
    simp only [h1, h2, Bool.false_eq_true, if_false]
    rw [if_neg, if_pos]
    · unfold AsksReplay at h4
      simp only [Bool.or_eq_true, Option.isSome_iff_ne_none]
      tauto
    · unfold AsksStorage at h3
      simp only [Bool.or_eq_true]
      tauto
  | fuzzing h1 h2 h3 h4 =>
    simp only [h1, h2, Bool.false_eq_true, if_false]
    rw [if_neg, if_neg]
    · unfold AsksReplay at h4
      simp only [Bool.or_eq_true, Option.isSome_iff_ne_none]
      tauto
    · unfold AsksStorage at h3
      simp only [Bool.or_eq_true]
      tauto

theorem wantsConsolidate_iff (o : Opts) : wantsConsolidate o = true ↔ Consolidating o := by
  unfold wantsConsolidate Consolidating
  cases o.consolidateAll <;> cases o.resetAll <;> simp

/-- Everything but the targets printed belongs to every mode. -/
theorem build_belongs (o : Opts) (m : Mode) (y : Sys) : Does (Belongs o m) (prepare o y) := by
  unfold prepare gather build
  exact .bind (.lift _) fun _ _ => .bind (.act .aflVersion) fun _ _ => .bind (.lift _) fun _ _ => .bind (.lift _) fun _ _ =>
    .bind (.lift _) fun _ _ => .bind (.lift _) fun _ _ =>
    .bind (.bind (.lift _) fun _ _ => .bind (.act .build) fun _ _ => fun s => ⟨[], by simp, by simp⟩) fun _ _ =>
    .bind (fun s => ⟨_, rfl, by
      intro a ha
      obtain ⟨e, -, rfl⟩ := List.mem_map.mp ha
      exact .listTests⟩) fun _ _ => .bind (.lift _) fun _ _ => .pure _

theorem entriesLoop_belongs (o : Opts) (lim : Nat) (y : Sys) (f a e d ns se) :
    Does (Belongs o .replaying) (entriesLoop lim y f a e d ns se) := by
  induction ns generalizing se with
  | nil => exact .pure _
  | cons n ns ih =>
    unfold entriesLoop
    refine .bind (.io _ _) fun _ _ => ?_
    split
    · exact ih _
    · refine .bind (.plain (runEntry_plain (P := Belongs o .replaying) _ _ _ _ _ _ _ .harness .wait .kill) fun _ h => h)
        fun z _ => ?_
      exact .bind (.plain (reportEntry_plain (P := Belongs o .replaying) _ _ _ _ _ fun _ => .report) fun _ h => h)
        fun _ _ => ih _

theorem replayLoop_belongs (o : Opts) (o' : Opts) (y : Sys) (m l) : Does (Belongs o' .replaying) (replayLoop o y m l) := by
  induction l with
  | nil => exact .pure _
  | cons x l ih =>
    obtain ⟨exe, target⟩ := x
    unfold replayLoop printHeading forEachEntry
    exact .bind (.when (.bind (.lift _) fun _ _ => .act .heading)) fun _ _ => .bind (.lift _) fun x _ =>
      .bind (.bind (.io _ _) fun _ _ => .bind (.lift _) fun _ _ => .bind (.io _ _) fun _ _ =>
        .bind (entriesLoop_belongs _ _ _ _ _ _ _ _ _) fun _ _ =>
          .plain (closing_plain (P := Belongs o' .replaying) _ _ fun _ => .note) fun _ h => h) fun _ _ => ih

theorem replayAll_belongs (o : Opts) (y : Sys) (llvm ets) : Does (Belongs o .replaying) (replayAll o y llvm ets) := by
  unfold replayAll
  have hw : ∀ {x : Rm Unit}, (o.coverage ≠ none → Does (Belongs o .replaying) x) →
      Does (Belongs o .replaying) (Rm.when o.coverage.isSome x) := by
    intro x h
    unfold Rm.when
    split
    · next hc => exact h (by rw [← Option.isSome_iff_ne_none]; exact hc)
    · exact .pure _
  refine .bind (hw fun hc => ?_) fun _ _ => .bind (.lift _) fun flat _ => .bind (replayLoop_belongs _ _ _ _ _) fun _ _ =>
    hw fun hc => ?_
  · unfold coverageClean
    refine .bind (.lift _) fun c hcm => .plain (mustSucceed_plain _ _ ?_) fun _ h => h
    obtain ⟨h1, h2⟩ := command_ok (lift_result hcm)
    exact .coverage hc h1 h2
  · unfold coverageReport
    refine .bind ?_ fun _ _ => .bind (.lift _) fun c hcm => .plain (mustSucceed_plain _ _ ?_) fun _ h => h
    · unfold coverageWarning
      split
      · exact .lift _
      · exact .when (.act .note)
    · obtain ⟨h1, h2⟩ := command_ok (lift_result hcm)
      exact .coverage (l := [c%"report", c%"--lcov", c%"--output-path=lcov.info"] ++ _) hc h1
        (by simp only [Cmd.addArgs, h2, List.cons_append]; rfl)

theorem fuzz_belongs (o o' : Opts) (y : Sys) (llvm ets) : Does (Belongs o' .fuzzing) (fuzz o y llvm ets) := by
  unfold fuzz
  refine .bind (.lift _) fun _ _ => .bind ?_ fun _ _ => ?_
  · unfold autoGenerateCorpora
    refine .bind ?_ fun _ _ => ?_
    · generalize ([] : List Str) = errs
      induction ets generalizing errs with
      | nil => exact .pure _
      | cons x ets ih =>
        obtain ⟨exe, target⟩ := x
        unfold autoGenerateLoop
        refine .bind (.lift _) fun _ _ => .bind (.io _ _) fun _ _ => ?_
        split
        · exact ih _
        · refine .bind (.act .fuzzNote) fun _ _ => .bind ?_ fun e _ => ?_
          · unfold autoGenerateCorpus
            refine .bind (.lift _) fun c hc => .bind (.command _ .fuzzCommand) fun _ _ => ?_
            split <;> exact .pure _
          · split
            · exact ih _
            · refine .bind (.io _ _) fun _ _ => ?_
              split
              · exact ih _
              · exact .bind (.act .fuzzNote) fun _ _ => ih _
    · split
      · exact .pure _
      · exact .lift _
  · split
    · refine .bind (.io _ _) fun cmd _ => .bind (.command _ .fuzzCommand) fun _ _ => ?_
      split
      · exact .lift _
      · exact .lift _
    · unfold fuzzMany
      exact .bind (.lift _) fun _ _ => .bind (.act .fuzzLoop) fun _ _ => .loop _ _

/-- `run` has the state of `runWithoutExitCode`. -/
theorem run_state (o : Opts) (y : Sys) (s : RSt) : (run o y s).2 = (runWithoutExitCode (effectiveOpts o) y s).2 := by
  unfold run
  split
  · next e s' he => rw [he]; split <;> rfl
  · rfl

theorem run_ok_iff (o : Opts) (y : Sys) (s : RSt) :
    (run o y s).1 = .ok () ↔ (runWithoutExitCode (effectiveOpts o) y s).1 = .ok () := by
  unfold run
  split
  · next e s' he => rw [he]; split <;> simp
  · rfl

/-- **C72 (modes).** The options ask for exactly one of five things, and whatever happens, everything done besides looking
for the targets is part of that: printing the targets only for `--list`; consolidation only if asked for and not overridden
by `--reset-all`; stored data removed only for the storage options; harnesses run only for coverage, display and replay;
fuzzing only if nothing else is asked for; coverage tools only with `--coverage`. -/
theorem C72_mode (o : Opts) : ∃ m, Wants o m ∧ (∀ m', Wants o m' → m' = m) ∧
    ∀ (y : Sys) (s : RSt), ∃ l, (run o y s).2.acts = s.acts ++ l ∧ ∀ a ∈ l, Belongs o m a := by
  obtain ⟨m, hm⟩ := wants_exists o
  refine ⟨m, hm, fun m' h => wants_unique h hm, fun y s => ?_⟩
  have H : Does (Belongs (effectiveOpts o) m) (runWithoutExitCode (effectiveOpts o) y) := by
    have hm := wants_effective.mpr hm
    generalize effectiveOpts o = o at hm
    unfold runWithoutExitCode
    refine .bind (build_belongs o m y) fun x hx => ?_
    obtain ⟨llvm, ets⟩ := x
    dsimp only
    rw [dispatch_eq hm]
    cases m with
    | listing => exact .act .targets
    | building => exact .pure _
    | storing =>
      unfold storageAll
      refine .bind ?_ fun _ _ => .bind (.act .reset) fun _ _ => .io _ _
      unfold Rm.when
      split
      · next hc => exact .act (.consolidate ((wantsConsolidate_iff o).mp hc))
      · exact .pure _
    | replaying => exact replayAll_belongs o y llvm ets
    | fuzzing => exact .bind (.lift _) fun flat hflat => fuzz_belongs o o y llvm flat
  obtain ⟨l, h1, h2⟩ := H s
  exact ⟨l, by rw [run_state, h1], fun a ha => belongs_effective (h2 a ha)⟩

theorem storage_effective (o : Opts) (c : Ctx) (ls : Lister) (ets) :
    storage (effectiveOpts o) c ls ets = storage o c ls ets := by
  unfold effectiveOpts
  split
  · have h1 : ∀ l, consolidateLoop { o with noUi := true } c ls l = consolidateLoop o c ls l := by
      intro l
      induction l with
      | nil => rfl
      | cons x l ih => obtain ⟨e, ts⟩ := x; simp only [consolidateLoop, ih]
    have h2 : ∀ l, resetLoop { o with noUi := true } c l = resetLoop o c l := by
      intro l
      induction l with
      | nil => rfl
      | cons x l ih => obtain ⟨e, ts⟩ := x; simp only [resetLoop, ih]
    simp only [storage, consolidate, reset, h1, h2]
  · rfl

/-- **C72 (storage).** In storage mode, unless the command fails before, consolidation is begun iff it is asked for and
not overridden, then removal, for all selected targets, and the files are changed by nothing else. -/
theorem C72_storage (o : Opts) (ho : Wants o .storing) (y : Sys) (s : RSt) (hok : (run o y s).1 = .ok ()) :
    ∃ exes ets l, buildResult y.metadata (y.build s.world.fs).1 = .ok exes ∧
      executableTargets y.listing exes = .ok ets ∧ (∀ a ∈ l, Looks a) ∧
      (Consolidating o → (run o y s).2.acts = s.acts ++ l ++ [.consolidate (selectTargets o ets), .reset (selectTargets o ets)]) ∧
      (¬ Consolidating o → (run o y s).2.acts = s.acts ++ l ++ [.reset (selectTargets o ets)]) ∧
      storage o y.ctx y.lister (selectTargets o ets) y.plan ⟨(y.build s.world.fs).2, s.world.tick⟩ =
        (.ok (), (run o y s).2.world) := by
  have e2 : ∀ ets, selectTargets (effectiveOpts o) ets = selectTargets o ets := by
    intro ets; unfold effectiveOpts; split <;> rfl
  have e3 : Consolidating (effectiveOpts o) ↔ Consolidating o := by unfold effectiveOpts; split <;> rfl
  have e4 : ∀ ets, storage (effectiveOpts o) y.ctx y.lister ets = storage o y.ctx y.lister ets := by
    intro ets; exact storage_effective o y.ctx y.lister ets
  rw [run_state]
  rw [run_ok_iff] at hok
  have ho := wants_effective.mpr ho
  simp only [← e2, ← e3, ← e4]
  generalize effectiveOpts o = o at *
  unfold runWithoutExitCode at hok ⊢
  rw [Rm.bind_def] at hok ⊢
  have hplain := prepare_plain o y (P := Looks) (fun _ h => h) s
  rcases hp : prepare o y s with ⟨r, s'⟩
  rw [hp] at hok hplain
  cases r with
  | ok x =>
    obtain ⟨cafl, exes, ets, -, h2, h3, h4, -, h6⟩ := prepare_ok hp
    obtain ⟨-, l, hl, hlooks⟩ := hplain
    obtain ⟨llvm, sel⟩ := x
    simp only at h4 hok hl ⊢
    subst h4
    rw [dispatch_eq ho] at hok ⊢
    simp only at hok ⊢
    unfold storageAll at hok ⊢
    refine ⟨exes, ets, l, h2, h3, hlooks, fun hc => ?_, fun hc => ?_, ?_⟩
    · rw [(wantsConsolidate_iff o).mpr hc]
      simp [Rm.when, Rm.bind_def, Rm.act, Rm.io, hl]
    · have : wantsConsolidate o = false := by
        rw [← Bool.not_eq_true, wantsConsolidate_iff]; exact hc
      rw [this]
      simp [Rm.when, Rm.bind_def, Rm.act, Rm.io, hl]
    · have h7 : ∀ b : Bool, ((Rm.when b (Rm.act (.consolidate (selectTargets o ets))) >>= fun _ =>
          Rm.act (.reset (selectTargets o ets)) >>= fun _ =>
          Rm.io y (storage o y.ctx y.lister (selectTargets o ets))) s').1 =
            (storage o y.ctx y.lister (selectTargets o ets) y.plan s'.world).1 ∧
          ((Rm.when b (Rm.act (.consolidate (selectTargets o ets))) >>= fun _ =>
          Rm.act (.reset (selectTargets o ets)) >>= fun _ =>
          Rm.io y (storage o y.ctx y.lister (selectTargets o ets))) s').2.world =
            (storage o y.ctx y.lister (selectTargets o ets) y.plan s'.world).2 := by
        intro b
        cases b <;> exact ⟨rfl, rfl⟩
      rw [(h7 _).1] at hok
      rw [(h7 _).2, ← h6]
      exact Prod.ext hok rfl
  | _ => cases hok

/-! ## C32 for the whole command -/

/-- Nothing in `forEachEntry` prints a heading. -/
theorem forEachEntry_noTitles (o : Opts) (y : Sys) (exe t f d) :
    Does (fun x => titleOf x = none) (forEachEntry o y exe t f d) := by
  have h : ∀ ns se, Does (fun x => titleOf x = none) (entriesLoop (timeLimit o) y f (entryArgs t) exe.path d ns se) := by
    intro ns
    induction ns with
    | nil => exact fun _ => .pure _
    | cons n ns ih =>
      intro se
      unfold entriesLoop
      refine .bind (.io _ _) fun _ _ => ?_
      split
      · exact ih _
      · exact .bind (.plain (runEntry_plain (P := fun x => titleOf x = none) _ _ _ _ _ _ _ rfl rfl rfl) fun _ h => h) fun z _ =>
          .bind (.plain (reportEntry_plain (P := fun x => titleOf x = none) _ _ _ _ _ fun _ => rfl) fun _ h => h)
            fun _ _ => ih _
  unfold forEachEntry
  exact .bind (.io _ _) fun _ _ => .bind (.lift _) fun _ _ => .bind (.io _ _) fun _ _ => .bind (h _ _) fun _ _ =>
    .plain (closing_plain (P := fun x => titleOf x = none) _ _ fun _ => rfl) fun _ h => h

theorem Spec.Left.trans {y : Sys} {F G H : FS} (h : Left y F G) (h' : Left y G H) : Left y F H := by
  induction h' with
  | refl => exact h
  | run acts _ ih => exact .run acts ih

theorem Spec.Left.spared {y : Sys} {F G : FS} (h : Left y F G) {p : Path} (hp : Spared y p) : G p = F p := by
  induction h with
  | refl => rfl
  | run acts _ ih => rw [hp, ih]

theorem Spec.SameAt.trans {y : Sys} {d : Path} {F G H : FS} (h : SameAt y d F G) (h' : SameAt y d G H) : SameAt y d F H :=
  ⟨h.1.trans h'.1, h.2.1.trans h'.2.1, fun n => (h.2.2 n).trans (h'.2.2 n)⟩

theorem Spec.Left.untouched {y : Sys} {F G : FS} (h : Left y F G) {d : Path} (hd : Untouched y d) : SameAt y d G F := by
  induction h with
  | refl => exact ⟨rfl, rfl, fun _ => rfl⟩
  | run acts _ ih => exact (hd acts _).trans ih

theorem Spec.SameAt.inputs {y : Sys} {d : Path} {F G : FS} (h : SameAt y d F G) :
    Spec.inputs y.lister F d = Spec.inputs y.lister G d := by
  unfold Spec.inputs; rw [h.2.1]

theorem Spec.SameAt.harnessRuns {y : Sys} {d : Path} {F G : FS} (h : SameAt y d F G) (x : Exe × Str) :
    Spec.harnessRuns y.lister F d x = Spec.harnessRuns y.lister G d x := by
  unfold Spec.harnessRuns
  rw [h.inputs]
  refine List.map_congr_left fun n _ => ?_
  simp only [contents, h.2.2 n]

theorem Spec.SameAt.correct {y : Sys} {d : Path} {F G : FS} (h : SameAt y d F G) (hg : y.lister.Correct G d) :
    y.lister.Correct F d := by
  unfold Lister.Correct at hg ⊢
  rw [h.2.1]
  exact ⟨hg.1, fun n => by rw [h.2.2 n]; exact hg.2 n⟩

/-- The file system is changed by harnesses only. -/
def Lefts {α} (y : Sys) (x : Rm α) : Prop := ∀ s, Left y s.world.fs (x s).2.world.fs

theorem Lefts.bind {α β} {y} {x : Rm α} {f : α → Rm β} (hx : Lefts y x) (hf : ∀ a, Lefts y (f a)) : Lefts y (x >>= f) := by
  intro s
  have h := hx s
  rw [Rm.bind_def]
  split
  all_goals (rename_i hx'; rw [hx'] at h)
  · exact h.trans (hf _ _)
  all_goals exact h

theorem Lefts.same {α} {y} {x : Rm α} (h : ∀ s, (x s).2.world.fs = s.world.fs) : Lefts y x := fun s => by
  rw [h]; exact .refl
theorem Lefts.pure {α} {y} (a : α) : Lefts y (Pure.pure a : Rm α) := .same fun _ => rfl
theorem Lefts.lift {α} {y} (a : Out α) : Lefts y (Rm.lift a) := .same fun _ => rfl
theorem Lefts.act {y} (a : Act) : Lefts y (Rm.act a) := .same fun _ => rfl

theorem Lefts.io {α} {y} {x : IOm α} (h : ∀ w, (x y.plan w).2.fs = w.fs) : Lefts y (Rm.io y x) := .same fun s => h s.world

theorem forEachEntry_lefts (o : Opts) (y : Sys) (exe t f d) : Lefts y (forEachEntry o y exe t f d) := by
  have hrun : ∀ lim args e p i, Lefts y (runEntry lim y f args e p i) := by
    intro lim args e p i
    unfold runEntry
    split
    · split
      · exact .pure _
      · exact .lift _
    · refine .bind (fun s => .run _ .refl) fun r => ?_
      cases r with
      | startErr => exact .lift _
      | communicateErr => exact .lift _
      | finished e st =>
        refine .bind (.act _) fun _ => ?_
        cases st with
        | none => exact .lift _
        | some ok => exact .pure _
      | timedOut e k v =>
        refine .bind (.act _) fun _ => ?_
        split
        · exact .lift _
        · refine .bind (.act _) fun _ => ?_
          split
          · exact .lift _
          · exact .pure _
      | readErr k =>
        refine .bind (.act _) fun _ => ?_
        split
        · exact .lift _
        · exact .lift _
  have hopen : ∀ p, Lefts y (Rm.io y (openEntry p)) := by
    intro p
    refine .io fun w => ?_
    unfold openEntry IOm.prim
    rcases y.plan w.tick with _ | q | q
    · simp only
      rcases w.fs p with _ | _ | b <;> rfl
    · rfl
    · rfl
  have hloop : ∀ ns se, Lefts y (entriesLoop (timeLimit o) y f (entryArgs t) exe.path d ns se) := by
    intro ns
    induction ns with
    | nil => exact fun _ => .pure _
    | cons n ns ih =>
      intro se
      unfold entriesLoop
      refine .bind (hopen _) fun _ => ?_
      split
      · exact ih _
      · refine .bind (hrun _ _ _ _ _) fun z => .bind ?_ fun _ => ih _
        unfold reportEntry
        exact .bind (.act _) fun _ => .pure _
  unfold forEachEntry
  refine .bind (.io fun w => ?_) fun _ => .bind (.lift _) fun _ => .bind (.io fun w => ?_) fun _ => .bind (hloop _ _) fun _ => ?_
  · unfold pathExists
    rcases y.plan w.tick with _ | q | q <;> rfl
  · unfold readDir IOm.prim
    rcases y.plan w.tick with _ | q | q
    · simp only
      rcases w.fs.isDir d with _ | _ <;> rfl
    · rfl
    · rfl
  · unfold closing
    refine .bind (.lift _) fun _ => ?_
    split
    · exact .act _
    · split
      · exact .act _
      · split
        · exact .act _
        · exact .pure _

/-- One target: the directory need not exist. -/
theorem forEachEntry_all (o : Opts) (ho : o.coverage.isSome ∨ o.display.isSome ∨ o.replay.isSome) (y : Sys) (hy : Reliable y)
    (exe : Exe) (target : Str) (f : Flags) (dir : Path) (hne : dir ≠ []) (s : RSt)
    (hl : s.world.fs dir = some .dir → y.lister.Correct s.world.fs dir) (hsp : f.raw = true ∨ Untouched y dir) :
    (f.raw = true → (forEachEntry o y exe target f dir s).2.world.fs = s.world.fs) ∧
    ∃ l, (forEachEntry o y exe target f dir s).2.acts = s.acts ++ l ∧ l.filterMap titleOf = [] ∧
      l.filterMap harnessOf <+: (if f.raw then [] else harnessRuns y.lister s.world.fs dir (exe, target)) ∧
      ((forEachEntry o y exe target f dir s).1 = .ok () → s.world.fs dir = some .dir ∧
        l.filterMap harnessOf = (if f.raw then [] else harnessRuns y.lister s.world.fs dir (exe, target)) ∧
        (l.filterMap reportOf).map Report.name = inputs y.lister s.world.fs dir) := by
  have ht : ∀ l, (forEachEntry o y exe target f dir s).2.acts = s.acts ++ l → l.filterMap titleOf = [] := by
    intro l hl
    obtain ⟨l', h1, h2⟩ := forEachEntry_noTitles o y exe target f dir s
    rw [hl, List.append_cancel_left_eq] at h1
    subst h1
    rw [List.filterMap_eq_nil_iff]; exact h2
  by_cases hd : s.world.fs dir = some .dir
  · obtain ⟨-, -, h1, l, h2, h3, -, -, h6⟩ := C32_once o ho y hy exe target f dir s hd (hl hd) (hsp.imp_right fun h n acts F => (h acts F).2.2 n)
    exact ⟨fun hr => funext fun q => h1 q (.inl hr), l, h2, ht l h2, h3, fun hok => ⟨hd, (h6 hok).1, (h6 hok).2.1⟩⟩
  · have key : (forEachEntry o y exe target f dir s).2.world.fs = s.world.fs ∧
        (forEachEntry o y exe target f dir s).2.acts = s.acts ∧ (forEachEntry o y exe target f dir s).1 ≠ .ok () := by
      unfold forEachEntry
      rw [Rm.bind_ok (pathExists_reliable hy dir s)]
      cases hex : s.world.fs.exists dir with
      | false => exact ⟨rfl, rfl, fun h => nomatch h⟩
      | true =>
        simp only [ensure, if_true]
        rw [Rm.lift_ok_bind]
        have hb : (s.world.fs dir == some Node.dir) = false := by simpa using hd
        have : Rm.io y (readDir y.lister dir) { s with world := ⟨s.world.fs, s.world.tick + 1⟩ } =
            (.err c%"read_dir failed", { s with world := ⟨s.world.fs, s.world.tick + 1 + 1⟩ }) := by
          unfold Rm.io readDir IOm.prim FS.isDir
          rw [hy]
          simp [hb, hne]
        rw [Rm.bind_def, this]
        exact ⟨rfl, rfl, fun h => nomatch h⟩
    obtain ⟨h1, h2, h3⟩ := key
    exact ⟨fun _ => h1, [], by simpa using h2, rfl, by simp, fun h => absurd h h3⟩

theorem printHeading_cases (y : Sys) (target : Str) (multiple : Bool) (s : RSt) :
    Rm.when multiple (printHeading y target) s = (.panic, s) ∨
    ∃ k : List Act, Rm.when multiple (printHeading y target) s = (.ok (), { s with acts := s.acts ++ k }) ∧
      ∃ d, k = if multiple then [.heading target d] else [] := by
  cases multiple with
  | false => exact .inr ⟨[], by simp [Rm.when], [], rfl⟩
  | true =>
    simp only [Rm.when, if_true]
    unfold printHeading
    rcases headingText_cases y target with h | ⟨d, h⟩
    · exact .inl (by rw [h]; rfl)
    · exact .inr ⟨[.heading target d], by rw [h]; rfl, d, rfl⟩

/-- The loop over the targets. -/
theorem replayLoop_all (o : Opts) (ho : o.coverage.isSome ∨ o.display.isSome ∨ o.replay.isSome) (y : Sys) (hy : Reliable y)
    (multiple : Bool) (raw : Bool) (dirs : Exe × Str → Path) (fs : FS) (flat : List (Exe × Str))
    (hd : ∀ x ∈ flat, ∃ f, chooseFlagsAndDir o y.ctx x.1.name x.2 = .ok (f, dirs x) ∧ f.raw = raw) (hne : ∀ x, dirs x ≠ [])
    (hl : ∀ x ∈ flat, fs (dirs x) = some .dir → y.lister.Correct fs (dirs x))     (hsp : raw = true ∨ ∀ x ∈ flat, Untouched y (dirs x))
    (s : RSt) (hfs : ∀ x ∈ flat, SameAt y (dirs x) s.world.fs fs) :
    Left y s.world.fs (replayLoop o y multiple flat s).2.world.fs ∧
    (raw = true → (replayLoop o y multiple flat s).2.world.fs = s.world.fs) ∧
    ∃ l, (replayLoop o y multiple flat s).2.acts = s.acts ++ l ∧
      l.filterMap harnessOf <+: (flat.flatMap fun x => if raw then [] else harnessRuns y.lister fs (dirs x) x) ∧
      ((replayLoop o y multiple flat s).1 = .ok () → (∀ x ∈ flat, fs (dirs x) = some .dir) ∧
        l.filterMap titleOf = (if multiple then flat.map Prod.snd else []) ∧
        l.filterMap harnessOf = (flat.flatMap fun x => if raw then [] else harnessRuns y.lister fs (dirs x) x) ∧
        (l.filterMap reportOf).map Report.name = flat.flatMap fun x => inputs y.lister fs (dirs x)) := by
  induction flat generalizing s with
  | nil =>
    refine ⟨.refl, fun _ => rfl, [], by simp [replayLoop], by simp, fun _ => ⟨by simp, by cases multiple <;> rfl, rfl, rfl⟩⟩
  | cons x flat ih =>
    obtain ⟨exe, target⟩ := x
    obtain ⟨f, hc, rfl⟩ := hd (exe, target) (by simp)
    have ih := ih (fun x hx => hd x (List.mem_cons_of_mem _ hx)) (fun x hx => hl x (List.mem_cons_of_mem _ hx))
      (hsp.imp_right fun h x hx => h x (List.mem_cons_of_mem _ hx))
    have h0 := hfs (exe, target) (by simp)
    unfold replayLoop
    rcases printHeading_cases y target multiple s with hk1 | ⟨k, hk1, d, hk2⟩
    · rw [Rm.bind_def, hk1]
      exact ⟨.refl, fun _ => rfl, [], by simp, by simp, fun h => nomatch h⟩
    rw [Rm.bind_ok hk1]
    simp only at hc
    rw [hc, Rm.lift_ok_bind]
    simp only
    have kh : k.filterMap harnessOf = [] := by subst hk2; cases multiple <;> rfl
    have kr : k.filterMap reportOf = [] := by subst hk2; cases multiple <;> rfl
    have kt : k.filterMap titleOf = if multiple then [target] else [] := by subst hk2; cases multiple <;> rfl
    obtain ⟨h1, l, h2, h3, h4, h5⟩ := forEachEntry_all o ho y hy exe target f (dirs (exe, target)) (hne _)
      { s with acts := s.acts ++ k } (fun hd => h0.correct (hl (exe, target) (by simp) (h0.1 ▸ hd)))
      (hsp.imp_right fun h => h (exe, target) (by simp))
    have hleft := forEachEntry_lefts o y exe target f (dirs (exe, target)) { s with acts := s.acts ++ k }
    rw [Rm.bind_def]
    rcases hr : forEachEntry o y exe target f (dirs (exe, target)) { s with acts := s.acts ++ k } with ⟨r, s'⟩
    rw [hr] at h1 h2 h5 hleft
    simp only [h0.inputs, h0.harnessRuns, h0.1] at h1 h2 h4 h5 hleft
    have stop : ∀ {q : Out Unit × RSt}, q.2 = s' → q.1 ≠ .ok () → Left y s.world.fs q.2.world.fs ∧
        (f.raw = true → q.2.world.fs = s.world.fs) ∧
        ∃ l, q.2.acts = s.acts ++ l ∧
        l.filterMap harnessOf <+: (((exe, target) :: flat).flatMap fun x =>
          if f.raw then [] else harnessRuns y.lister fs (dirs x) x) ∧
        (q.1 = .ok () → (∀ x ∈ (exe, target) :: flat, fs (dirs x) = some .dir) ∧
          l.filterMap titleOf = (if multiple then ((exe, target) :: flat).map Prod.snd else []) ∧
          l.filterMap harnessOf = (((exe, target) :: flat).flatMap fun x =>
            if f.raw then [] else harnessRuns y.lister fs (dirs x) x) ∧
          (l.filterMap reportOf).map Report.name =
            ((exe, target) :: flat).flatMap fun x => inputs y.lister fs (dirs x)) := by
      intro q hq hn
      refine ⟨by rw [hq]; exact hleft, fun hr => by rw [hq, h1 hr], k ++ l, by rw [hq, h2, List.append_assoc], ?_, fun h => absurd h hn⟩
      rw [List.filterMap_append, kh, List.nil_append, List.flatMap_cons]
      exact h4.trans (List.prefix_append _ _)
    cases r with
    | ok u =>
      simp only
      obtain ⟨g1, g2, g3⟩ := h5 rfl
      have hsame : ∀ x ∈ flat, SameAt y (dirs x) s'.world.fs fs := by
        intro x hx
        have hx := List.mem_cons_of_mem (exe, target) hx
        rcases hsp with hr | h
        · rw [h1 hr]; exact hfs x hx
        · exact (hleft.untouched (h x hx)).trans (hfs x hx)
      obtain ⟨j1, j0, l', j2, j3, j4⟩ := ih s' hsame
      refine ⟨hleft.trans j1, fun hr => (j0 hr).trans (h1 hr), k ++ l ++ l', by rw [j2, h2]; simp, ?_, fun hok => ?_⟩
      · rw [List.filterMap_append, List.filterMap_append, kh, List.nil_append, List.flatMap_cons, g2]
        exact List.prefix_append_right_inj _ |>.mpr j3
      · obtain ⟨m1, m2, m3, m4⟩ := j4 hok
        refine ⟨?_, ?_, ?_, ?_⟩
        · intro x hx
          rcases List.mem_cons.mp hx with rfl | hx
          · exact g1
          · exact m1 x hx
        · rw [List.filterMap_append, List.filterMap_append, kt, h3, m2]
          cases multiple <;> simp
        · rw [List.filterMap_append, List.filterMap_append, kh, g2, m3]
          simp
        · rw [List.filterMap_append, List.filterMap_append, kr, List.map_append, m4]
          simp [g3]
    | err e => exact stop rfl (fun h => nomatch h)
    | panic => exact stop rfl (fun h => nomatch h)
    | exit c => exact stop rfl (fun h => nomatch h)
    | crash => exact stop rfl (fun h => nomatch h)

theorem pairs_eq (ets : List (Exe × List Str)) :
    (ets.flatMap fun (e, ts) => ts.map fun t => (e, t)) = pairs ets := rfl

theorem flatten_eq {o : Opts} {ets : List (Exe × List Str)} {flat : List (Exe × Str)}
    (h : flattenExecutableTargets o ets = .ok flat) : flat = pairs ets ∧ flat ≠ [] := by
  unfold flattenExecutableTargets at h
  dsimp only at h
  rw [pairs_eq] at h
  unfold ensure at h
  split at h
  · next hne => rw [Out.ok_bind] at h; cases h; exact ⟨rfl, by simpa using hne⟩
  · cases h

theorem mustSucceed_state (y : Sys) (c : Cmd) (s : RSt) :
    (mustSucceed y c s).2 = ⟨{ s.world with fs := (y.command s.acts c s.world.fs).2 }, s.acts ++ [.command c]⟩ := by
  unfold mustSucceed
  rw [Rm.bind_def]
  simp only [Rm.command]
  rcases (y.command s.acts c s.world.fs).1 with _ | b
  · rfl
  · rfl

/-- The part before the loop. -/
theorem coverageClean_prepared (o : Opts) (y : Sys) (s s' : RSt) (llvm) (h : s'.world.fs = (y.build s.world.fs).2) :
    Prepared o y s (Rm.when o.coverage.isSome (coverageClean y llvm) s').2.world.fs ∧
    ∃ l, (Rm.when o.coverage.isSome (coverageClean y llvm) s').2.acts = s'.acts ++ l ∧ l.filterMap harnessOf = [] ∧
      l.filterMap titleOf = [] ∧ l.filterMap reportOf = [] := by
  unfold Rm.when
  cases hc : o.coverage with
  | none => exact ⟨.inl h, [], by simp, rfl, rfl, rfl⟩
  | some ob =>
    simp only [Option.isSome_some, if_true]
    unfold coverageClean
    cases hcm : command llvm [c%"cargo", c%"llvm-cov", c%"clean", c%"--profraw-only"] with
    | ok c =>
      obtain ⟨h1, h2⟩ := command_ok hcm
      rw [Rm.lift_ok_bind, mustSucceed_state]
      exact ⟨.inr ⟨s'.acts, c, _, by simp [hc], h1, h2, by rw [h]⟩, _, rfl, rfl, rfl, rfl⟩
    | _ => exact ⟨.inl h, [], by simp [Rm.bind_def, Rm.lift], rfl, rfl, rfl⟩

/-- After the loop no harness is run and nothing reported. -/
theorem coverageReport_quiet (o : Opts) (y : Sys) (llvm) (s : RSt) :
    ∃ l, (Rm.when o.coverage.isSome (coverageReport o y llvm) s).2.acts = s.acts ++ l ∧ l.filterMap harnessOf = [] ∧
      l.filterMap titleOf = [] ∧ l.filterMap reportOf = [] := by
  have H : Does (fun a => harnessOf a = none ∧ titleOf a = none ∧ reportOf a = none)
      (Rm.when o.coverage.isSome (coverageReport o y llvm)) := by
    refine .when ?_
    unfold coverageReport
    refine .bind ?_ fun _ _ => .bind (.lift _) fun c hcm => .plain (mustSucceed_plain _ _ ⟨rfl, rfl, rfl⟩) fun _ h => h
    unfold coverageWarning
    split
    · exact .lift _
    · exact .when (.act ⟨rfl, rfl, rfl⟩)
  obtain ⟨l, h1, h2⟩ := H s
  exact ⟨l, h1, List.filterMap_eq_nil_iff.mpr fun a ha => (h2 a ha).1,
    List.filterMap_eq_nil_iff.mpr fun a ha => (h2 a ha).2.1, List.filterMap_eq_nil_iff.mpr fun a ha => (h2 a ha).2.2⟩

theorem looks_quiet {l : List Act} (h : ∀ a ∈ l, Looks a) :
    l.filterMap harnessOf = [] ∧ l.filterMap titleOf = [] ∧ l.filterMap reportOf = [] := by
  refine ⟨List.filterMap_eq_nil_iff.mpr fun a ha => ?_, List.filterMap_eq_nil_iff.mpr fun a ha => ?_,
    List.filterMap_eq_nil_iff.mpr fun a ha => ?_⟩ <;> (have := h a ha; cases a <;> first | rfl | exact absurd this id)

/-- All parts together. -/
theorem replayAll_all (o : Opts) (ho : o.coverage.isSome ∨ o.display.isSome ∨ o.replay.isSome) (y : Sys) (hy : Reliable y)
    (llvm) (ets : List (Exe × List Str)) (raw : Bool) (dirs : Exe × Str → Path)
    (hd : ∀ x ∈ pairs ets, ∃ f, chooseFlagsAndDir o y.ctx x.1.name x.2 = .ok (f, dirs x) ∧ f.raw = raw)
    (hne : ∀ x, dirs x ≠ [])
    (s s' : RSt)
    (hl : ∀ F, Prepared o y s F → ∀ x ∈ pairs ets, F (dirs x) = some .dir → y.lister.Correct F (dirs x))
    (hsp : raw = true ∨ ∀ x ∈ pairs ets, Untouched y (dirs x)) (hs : s'.world.fs = (y.build s.world.fs).2) :
    ∃ F l, Prepared o y s F ∧ (replayAll o y llvm ets s').2.acts = s'.acts ++ l ∧
      (o.coverage = none → Left y F (replayAll o y llvm ets s').2.world.fs ∧
        (raw = true → (replayAll o y llvm ets s').2.world.fs = F)) ∧
      l.filterMap harnessOf <+: ((pairs ets).flatMap fun x => if raw then [] else harnessRuns y.lister F (dirs x) x) ∧
      ((replayAll o y llvm ets s').1 = .ok () → pairs ets ≠ [] ∧ (∀ x ∈ pairs ets, F (dirs x) = some .dir) ∧
        l.filterMap titleOf = (if 1 < (pairs ets).length then (pairs ets).map Prod.snd else []) ∧
        l.filterMap harnessOf = ((pairs ets).flatMap fun x => if raw then [] else harnessRuns y.lister F (dirs x) x) ∧
        (l.filterMap reportOf).map Report.name = (pairs ets).flatMap fun x => inputs y.lister F (dirs x)) := by
  obtain ⟨p1, l1, p2, p3, p4, p5⟩ := coverageClean_prepared o y s s' llvm hs
  have hn : o.coverage = none → Rm.when o.coverage.isSome (coverageClean y llvm) s' = (.ok (), s') := by
    intro h; rw [h]; rfl
  unfold replayAll
  rw [Rm.bind_def]
  rcases hr : Rm.when o.coverage.isSome (coverageClean y llvm) s' with ⟨r, t⟩
  rw [hr] at p1 p2 hn
  have stop : ∀ {q : Out Unit × RSt}, q.2 = t → q.1 ≠ .ok () →
      ∃ F l, Prepared o y s F ∧ q.2.acts = s'.acts ++ l ∧ (o.coverage = none → Left y F q.2.world.fs ∧ (raw = true → q.2.world.fs = F)) ∧
      l.filterMap harnessOf <+: ((pairs ets).flatMap fun x => if raw then [] else harnessRuns y.lister F (dirs x) x) ∧
      (q.1 = .ok () → pairs ets ≠ [] ∧ (∀ x ∈ pairs ets, F (dirs x) = some .dir) ∧
        l.filterMap titleOf = (if 1 < (pairs ets).length then (pairs ets).map Prod.snd else []) ∧
        l.filterMap harnessOf = ((pairs ets).flatMap fun x => if raw then [] else harnessRuns y.lister F (dirs x) x) ∧
        (l.filterMap reportOf).map Report.name = (pairs ets).flatMap fun x => inputs y.lister F (dirs x)) := by
    intro q hq hok
    exact ⟨_, l1, p1, by rw [hq]; exact p2, fun _ => by rw [hq]; exact ⟨.refl, fun _ => rfl⟩, by rw [p3]; exact List.nil_prefix, fun h => absurd h hok⟩
  cases r with
  | ok u =>
    simp only
    cases hf : flattenExecutableTargets o ets with
    | ok flat =>
      rw [Rm.lift_ok_bind]
      obtain ⟨rfl, hnon⟩ := flatten_eq hf
      obtain ⟨h1, h0, l2, h2, h3, h4⟩ := replayLoop_all o ho y hy (decide ((pairs ets).length > 1)) raw dirs t.world.fs
        (pairs ets) hd hne (fun x hx => hl _ p1 x hx) hsp t
        (fun _ _ => ⟨rfl, rfl, fun _ => rfl⟩)
      rw [Rm.bind_def]
      rcases hr2 : replayLoop o y (decide ((pairs ets).length > 1)) (pairs ets) t with ⟨r2, t2⟩
      rw [hr2] at h0 h1 h2 h4
      have stop2 : ∀ {q : Out Unit × RSt}, q.2 = t2 → q.1 ≠ .ok () →
          ∃ F l, Prepared o y s F ∧ q.2.acts = s'.acts ++ l ∧ (o.coverage = none → Left y F q.2.world.fs ∧ (raw = true → q.2.world.fs = F)) ∧
          l.filterMap harnessOf <+: ((pairs ets).flatMap fun x => if raw then [] else harnessRuns y.lister F (dirs x) x) ∧
          (q.1 = .ok () → pairs ets ≠ [] ∧ (∀ x ∈ pairs ets, F (dirs x) = some .dir) ∧
            l.filterMap titleOf = (if 1 < (pairs ets).length then (pairs ets).map Prod.snd else []) ∧
            l.filterMap harnessOf = ((pairs ets).flatMap fun x => if raw then [] else harnessRuns y.lister F (dirs x) x) ∧
            (l.filterMap reportOf).map Report.name = (pairs ets).flatMap fun x => inputs y.lister F (dirs x)) := by
        intro q hq hok
        refine ⟨_, l1 ++ l2, p1, by rw [hq]; simp only at h2 p2; rw [h2, p2, List.append_assoc],
          fun _ => by rw [hq]; exact ⟨h1, h0⟩, ?_, fun h => absurd h hok⟩
        rw [List.filterMap_append, p3, List.nil_append]; exact h3
      cases r2 with
      | ok u2 =>
        simp only
        obtain ⟨k1, k2, k3, k4⟩ := h4 rfl
        obtain ⟨l3, c1, c2, c3, c4⟩ := coverageReport_quiet o y llvm t2
        refine ⟨t.world.fs, l1 ++ l2 ++ l3, p1, ?_, ?_, ?_, fun _ => ⟨hnon, k1, ?_, ?_, ?_⟩⟩
        · simp only at h2 p2; rw [c1, h2, p2]; simp
        · intro hco
          rw [hco]
          simpa [Rm.when] using ⟨h1, h0⟩
        · rw [List.filterMap_append, List.filterMap_append, p3, c2, List.nil_append, List.append_nil]; exact h3
        · rw [List.filterMap_append, List.filterMap_append, p4, c3, List.nil_append, List.append_nil, k2]
          simp
        · rw [List.filterMap_append, List.filterMap_append, p3, c2, List.nil_append, List.append_nil, k3]
        · rw [List.filterMap_append, List.filterMap_append, p5, c4, List.nil_append, List.append_nil, k4]
      | err e => exact stop2 rfl (fun h => nomatch h)
      | panic => exact stop2 rfl (fun h => nomatch h)
      | exit c => exact stop2 rfl (fun h => nomatch h)
      | crash => exact stop2 rfl (fun h => nomatch h)
    | err e => exact stop rfl (fun h => nomatch h)
    | panic => exact stop rfl (fun h => nomatch h)
    | exit c => exact stop rfl (fun h => nomatch h)
    | crash => exact stop rfl (fun h => nomatch h)
  | err e => exact stop rfl (fun h => nomatch h)
  | panic => exact stop rfl (fun h => nomatch h)
  | exit c => exact stop rfl (fun h => nomatch h)
  | crash => exact stop rfl (fun h => nomatch h)

theorem chosen_effective {o : Opts} {ob : Object} : Chosen (effectiveOpts o) ob ↔ Chosen o ob := by
  unfold effectiveOpts; split <;> rfl

/-- **C32 (the whole command).** Coverage, display and replay go through the selected targets in order; for each, the
harness of that target is run from that target's executable on each stored input of that target's object, in order, once,
with its contents as standard input (not at all for objects that are only shown), and each input is reported. If the command
fails, a beginning of this has been done. Headings tell the targets apart if there is more than one. A selected target
without a directory of the object makes the command fail. Harnesses are assumed to leave these directories alone, but may
change other files. Without coverage, all files that no harness changes are as before. -/
theorem C32_run (o : Opts) (ob : Object) (hm : Wants o .replaying) (ho : Chosen o ob) (y : Sys) (hy : Reliable y)
    (root : Path)
    (hroot : targetDirectory y.ctx false false = .ok root) (hid : IdOk y.ctx) (s : RSt) (exes ets)
    (hexes : buildResult y.metadata (y.build s.world.fs).1 = .ok exes) (hets : executableTargets y.listing exes = .ok ets)
    (hns : ∀ x ∈ pairs (selectTargets o ets), NoSlash x.1.name ∧ NoSlash x.2) :
    let sel := pairs (selectTargets o ets)
    let dir := fun x : Exe × Str => root ++ objectPath (maybeId y.ctx) (qualified x) ob
    (∀ F, Prepared o y s F → ∀ x ∈ sel, F (dir x) = some .dir → y.lister.Correct F (dir x)) →
    (TypeNames ob ∨ ∀ x ∈ sel, Untouched y (dir x)) →
    ∃ F l, Prepared o y s F ∧ (run o y s).2.acts = s.acts ++ l ∧
      l.filterMap harnessOf <+: (sel.flatMap fun x => if TypeNames ob then [] else harnessRuns y.lister F (dir x) x) ∧
      ((run o y s).1 = .ok () → sel ≠ [] ∧ (∀ x ∈ sel, F (dir x) = some .dir) ∧
        l.filterMap titleOf = (if 1 < sel.length then sel.map Prod.snd else []) ∧
        l.filterMap harnessOf = (sel.flatMap fun x => if TypeNames ob then [] else harnessRuns y.lister F (dir x) x) ∧
        (l.filterMap reportOf).map Report.name = (sel.flatMap fun x => inputs y.lister F (dir x)) ∧
        (o.coverage = none → ∀ p, TypeNames ob ∨ Spared y p → (run o y s).2.world.fs p = F p)) := by
  intro sel dir hl hsp
  have e2 : ∀ ets, selectTargets (effectiveOpts o) ets = selectTargets o ets := by
    intro ets; unfold effectiveOpts; split <;> rfl
  have e5 : (effectiveOpts o).coverage = o.coverage := by unfold effectiveOpts; split <;> rfl
  have e6 : ∀ F, Prepared (effectiveOpts o) y s F → Prepared o y s F := by
    intro F h; unfold Prepared at h ⊢; rw [e5] at h; exact h
  rw [run_state, run_ok_iff]
  have hm := wants_effective.mpr hm
  have ho := chosen_effective.mpr ho
  have hsome : (effectiveOpts o).coverage.isSome ∨ (effectiveOpts o).display.isSome ∨ (effectiveOpts o).replay.isSome := by
    rcases ho with h | ⟨-, h⟩ | ⟨-, -, h⟩ <;> simp [h]
  have hraw : ∀ x ∈ sel, ∃ f, chooseFlagsAndDir (effectiveOpts o) y.ctx x.1.name x.2 = .ok (f, dir x) ∧
      f.raw = decide (TypeNames ob) := by
    intro x hx
    obtain ⟨e, t⟩ := x
    obtain ⟨h1, h2⟩ := hns _ hx
    obtain ⟨f, hf⟩ := C32_directory (effectiveOpts o) ob ho y.ctx root ⟨e.name, [], t, []⟩ e.name hroot hid h1 h2 rfl
    have hf' : chooseFlagsAndDir (effectiveOpts o) y.ctx e.name t = .ok (f, dir (e, t)) := hf
    refine ⟨f, hf', ?_⟩
    have hfd : flagsAndDir y.ctx ob e.name t = .ok (f, dir (e, t)) := by
      rw [← hf']
      unfold chooseFlagsAndDir
      rcases ho with h | ⟨h, h'⟩ | ⟨h, h', h''⟩
      · rw [h]
      · rw [h, h']
      · rw [h, h', h'']
    have := (C32_objects _ _ _ _ _ _ hfd).2
    rw [Bool.eq_iff_iff, this, decide_eq_true_iff]
  have hdne : ∀ x, dir x ≠ [] := by
    intro x h
    have := List.append_eq_nil_iff.mp h
    revert this
    cases ob <;> simp [objectPath]
  unfold runWithoutExitCode
  rw [Rm.bind_def]
  have hplain := prepare_plain (effectiveOpts o) y (P := Looks) (fun _ h => h) s
  rcases hp : prepare (effectiveOpts o) y s with ⟨r, s'⟩
  rw [hp] at hplain
  obtain ⟨-, l0, hl0, hlooks⟩ := hplain
  obtain ⟨q1, q2, q3⟩ := looks_quiet hlooks
  have stop : ∀ {q : Out Unit × RSt}, q.2 = s' → q.1 ≠ .ok () → ∃ F l, Prepared o y s F ∧ q.2.acts = s.acts ++ l ∧
      l.filterMap harnessOf <+: (sel.flatMap fun x => if TypeNames ob then [] else harnessRuns y.lister F (dir x) x) ∧
      (q.1 = .ok () → sel ≠ [] ∧ (∀ x ∈ sel, F (dir x) = some .dir) ∧
        l.filterMap titleOf = (if 1 < sel.length then sel.map Prod.snd else []) ∧
        l.filterMap harnessOf = (sel.flatMap fun x => if TypeNames ob then [] else harnessRuns y.lister F (dir x) x) ∧
        (l.filterMap reportOf).map Report.name = (sel.flatMap fun x => inputs y.lister F (dir x)) ∧
        (o.coverage = none → ∀ p, TypeNames ob ∨ Spared y p → q.2.world.fs p = F p)) := by
    intro q hq hok
    exact ⟨_, l0, .inl rfl, by rw [hq]; exact hl0, by rw [q1]; exact List.nil_prefix, fun h => absurd h hok⟩
  cases r with
  | ok x =>
    obtain ⟨cafl, exes', ets', -, h2, h3, h4, -, h6⟩ := prepare_ok hp
    rw [hexes] at h2
    cases h2
    rw [hets] at h3
    cases h3
    obtain ⟨llvm, sel'⟩ := x
    simp only at h4
    rw [e2] at h4
    subst h4
    simp only
    rw [dispatch_eq hm]
    simp only
    obtain ⟨F, l, g1, g2, g3, g4, g5⟩ := replayAll_all (effectiveOpts o) hsome y hy llvm (selectTargets o ets)
      (decide (TypeNames ob)) dir hraw hdne s s' (fun F hF => hl F (e6 F hF)) (hsp.imp_left fun h => by simpa using h)
      (by rw [h6])
    simp only [decide_eq_true_eq] at g4 g5
    simp only at hl0
    refine ⟨F, l0 ++ l, e6 F g1, by rw [g2, hl0, List.append_assoc], ?_, fun hok => ?_⟩
    · rw [List.filterMap_append, q1, List.nil_append]; exact g4
    · obtain ⟨k0, k1, k2, k3, k4⟩ := g5 hok
      rw [List.filterMap_append, List.filterMap_append, List.filterMap_append, q1, q2, q3, List.nil_append, List.nil_append,
        List.nil_append]
      refine ⟨k0, k1, k2, k3, k4, fun h p hp => ?_⟩
      obtain ⟨m1, m2⟩ := g3 (by rw [e5]; exact h)
      rcases hp with hp | hp
      · rw [m2 (by simpa using hp)]
      · exact m1.spared hp
  | err e => exact stop rfl (fun h => nomatch h)
  | panic => exact stop rfl (fun h => nomatch h)
  | exit c => exact stop rfl (fun h => nomatch h)
  | crash => exact stop rfl (fun h => nomatch h)

/-! ## Cases -/

namespace Demo

/-- Corpora for both targets. -/
def fs2 : FS := fun p =>
  if p = corpus c%"b" then some .dir
  else if p = corpus c%"b" ++ [c%"README.txt"] then some (.file [])
  else if p = corpus c%"b" ++ [c%"z"] then some (.file [3])
  else fs p

def sys2 : Sys := { sys with
  lister := fun _ d => if d = corpus c%"a" then [c%"x", c%"y"] else if d = corpus c%"b" then [c%"README.txt", c%"z"] else [] }

theorem sys2_lister : ∀ x, fs2 (corpus x) = some .dir → sys2.lister.Correct fs2 (corpus x) := by
  intro x hx
  have hx : x = c%"a" ∨ x = c%"b" := by
    by_contra hn
    rw [not_or] at hn
    revert hx
    simp [fs2, fs, corpus, hn.1, hn.2]
  rcases hx with rfl | rfl
  · refine ⟨by decide +kernel, fun n => ?_⟩
    simp [sys2, fs2, fs, corpus]
    grind
  · refine ⟨by decide +kernel, fun n => ?_⟩
    simp [sys2, fs2, fs, corpus]
    grind

/-- Harnesses write to a file that is not one of the stored ones. -/
def sys3 : Sys := { sys2 with
  leaves := fun _ F p => if p = [c%"log"] then some (.file ((contents F p).getD [] ++ [0])) else F p }

theorem sys3_spared {p : Path} (h : p ≠ [c%"log"]) : Spared sys3 p := fun _ _ => if_neg h

end Demo

open Demo

/-- C32_run: two targets. The hypotheses hold; three harness runs, two headings. The harnesses write to a file
elsewhere. -/
example : Wants { opts with replay := some .corpus } .replaying ∧ Chosen { opts with replay := some .corpus } .corpus ∧
    Reliable sys3 ∧ targetDirectory sys3.ctx false false = .ok [c%"t"] ∧ IdOk sys3.ctx ∧
    buildResult sys3.metadata (sys3.build fs2).1 = .ok [exe] ∧
    executableTargets sys3.listing [exe] = .ok [(exe, [c%"a", c%"b"])] ∧
    (∀ x ∈ pairs (selectTargets { opts with replay := some .corpus } [(exe, [c%"a", c%"b"])]), NoSlash x.1.name ∧ NoSlash x.2) ∧
    (∀ F, Prepared { opts with replay := some .corpus } sys3 ⟨⟨fs2, 0⟩, []⟩ F →
      ∀ x ∈ pairs (selectTargets { opts with replay := some .corpus } [(exe, [c%"a", c%"b"])]),
        F ([c%"t"] ++ objectPath (maybeId sys3.ctx) (qualified x) .corpus) = some .dir →
        sys3.lister.Correct F ([c%"t"] ++ objectPath (maybeId sys3.ctx) (qualified x) .corpus)) ∧
    (∀ x ∈ pairs (selectTargets { opts with replay := some .corpus } [(exe, [c%"a", c%"b"])]),
      Untouched sys3 ([c%"t"] ++ objectPath (maybeId sys3.ctx) (qualified x) .corpus)) ∧
    ¬ Spared sys3 [c%"log"] ∧ Spared sys3 (corpus c%"a") ∧
    (run { opts with replay := some .corpus } sys3 ⟨⟨fs2, 0⟩, []⟩).2.world.fs [c%"log"] = some (.file [0, 0, 0]) ∧
    (run { opts with replay := some .corpus } sys3 ⟨⟨fs2, 0⟩, []⟩).1 = .ok () ∧
    ((run { opts with replay := some .corpus } sys3 ⟨⟨fs2, 0⟩, []⟩).2.acts.filterMap harnessOf).map (fun x => x.2.2.2) =
      [some [1], some [2], some [3]] ∧
    (run { opts with replay := some .corpus } sys3 ⟨⟨fs2, 0⟩, []⟩).2.acts.filterMap titleOf = [c%"a", c%"b"] := by
  refine ⟨.replaying rfl rfl (by unfold AsksStorage; decide) (by unfold AsksReplay; decide), .inr (.inr ⟨rfl, rfl, rfl⟩), fun _ => rfl,
    by decide +kernel, ?_, by decide +kernel, by decide +kernel, ?_, ?_, ?_, ?_, sys3_spared (by decide +kernel), by decide +kernel,
    by decide +kernel, by decide +kernel, by decide +kernel⟩
  · intro id h
    rw [show maybeId sys3.ctx = none by decide +kernel] at h; cases h
  · unfold NoSlash; decide +kernel
  · rintro F (rfl | ⟨_, _, _, h, _⟩) x hx
    · have hx : x = (exe, c%"a") ∨ x = (exe, c%"b") := by
        simpa [selectTargets, pairs, opts] using hx
      rcases hx with rfl | rfl
      · exact sys2_lister c%"a"
      · exact sys2_lister c%"b"
    · exact absurd rfl h
  · intro x _ acts F
    exact ⟨sys3_spared (by simp [objectPath]) acts F, rfl, fun n => sys3_spared (by simp [objectPath]) acts F⟩
  · intro h
    have := h [] (fun _ => none)
    revert this
    decide +kernel

/-- C72_storage: `--consolidate` for the target `a`, of whose findings there is a crash. -/
example : Wants { opts with consolidate := true, ztarget := some c%"a", exact := true } .storing ∧
    Consolidating { opts with consolidate := true, ztarget := some c%"a", exact := true } ∧
    Wants { opts with resetAll := true, consolidate := true } .storing ∧
    ¬ Consolidating { opts with resetAll := true, consolidate := true } ∧
    (run { opts with resetAll := true, consolidate := true } sys2 ⟨⟨fs2, 0⟩, []⟩).1 = .ok () ∧
    (run { opts with resetAll := true, consolidate := true } sys2 ⟨⟨fs2, 0⟩, []⟩).2.acts.getLast? =
      some (.reset [(exe, [c%"a", c%"b"])]) := by
  refine ⟨.storing rfl rfl (.inl rfl), .inr ⟨rfl, rfl⟩, .storing rfl rfl (.inl rfl), ?_, by decide +kernel, by decide +kernel⟩
  unfold Consolidating; decide

end TF
