import Verif.Spec.Combine
import Verif.Props.Modes

/-!
# Coverage, display and replay together (C103)

`--coverage`, `--display` and `--replay` can be given together, each with an object of its own. Only one of the objects is
looked at.
-/

namespace TF

open Spec

theorem plain_display (di : Option Object) : (match di with
     | some .corpus | some .crashes | some .hangs | some .implGenericArgs | some .genericArgs | some .queue => true
     | _ => false) = true ↔ ∃ ob, di = some ob ∧ ¬ Instrumented ob := by
  rcases di with _ | d
  · simp
  · cases d <;> simp [Instrumented]

theorem plain_replay (re : Option Object) : (∀ ob, re = some ob → ¬ TypeNames ob) → ((match re with
     | some .corpus | some .crashes | some .hangs | some .queue => true
     | _ => false) = true ↔ ∃ ob, re = some ob ∧ ¬ Instrumented ob) := by
  intro h
  rcases re with _ | d
  · simp
  · have := h d rfl
    cases d <;> simp_all [Instrumented, TypeNames]

theorem includeFuzzing_plain (o : Opts) (h : ∀ ob, o.replay = some ob → ¬ TypeNames ob) :
    includeFuzzing o = false ↔ BuiltPlain o := by
  unfold includeFuzzing BuiltPlain
  rw [← plain_display, ← plain_replay _ h, Bool.not_eq_false', Bool.or_eq_true, Bool.or_eq_true, Bool.or_eq_true,
    Option.isSome_iff_ne_none, or_assoc, or_assoc]
  exact Iff.rfl

section
variable {o o' : Opts}

theorem SameButObjects.is (h : SameButObjects o o') :
    o = { o' with display := o.display, replay := o.replay } := h.rest.symm

theorem isSome_of_none_iff {a b : Option α} (h : a = none ↔ b = none) : a.isSome = b.isSome := by
  cases a <;> cases b <;> simp_all

theorem isNone_of_none_iff {a b : Option α} (h : a = none ↔ b = none) : a.isNone = b.isNone := by
  cases a <;> cases b <;> simp_all

theorem effective_same (h : SameButObjects o o') : SameButObjects (effectiveOpts o) (effectiveOpts o') := by
  obtain ⟨h1, h2, h3⟩ := h
  have e : o.exitCode = o'.exitCode := by rw [← h1]
  unfold effectiveOpts
  rw [← e]
  split
  · exact ⟨by rw [← h1], h2, h3⟩
  · exact ⟨h1, h2, h3⟩

theorem coverage_same (h : SameButObjects o o') : o.coverage = o'.coverage := by rw [← h.rest]

theorem participle_same (h : SameButObjects o o') : presentParticiple o = presentParticiple o' := by
  unfold presentParticiple
  rw [coverage_same h, isSome_of_none_iff h.display, isSome_of_none_iff h.replay]

theorem closing_same (h : SameButObjects o o') (se : Seen) : closing o se = closing o' se := by
  unfold closing
  rw [participle_same h, coverage_same h, isNone_of_none_iff h.replay]

theorem forEachEntry_same (h : SameButObjects o o') (y : Sys) (e t f d) :
    forEachEntry o y e t f d = forEachEntry o' y e t f d := by
  have e1 : timeLimit o = timeLimit o' := by rw [← h.rest]; rfl
  unfold forEachEntry
  rw [e1]
  simp only [closing_same h]

theorem choose_same {ob : Object} (h : Chosen o ob) (h' : Chosen o' ob) (c : Ctx) (k t : Str) :
    chooseFlagsAndDir o c k t = chooseFlagsAndDir o' c k t := by
  have key : ∀ o : Opts, Chosen o ob → chooseFlagsAndDir o c k t = flagsAndDir c ob k t := by
    rintro o (h | ⟨h1, h⟩ | ⟨h1, h2, h⟩)
    · simp [chooseFlagsAndDir, h]
    · simp [chooseFlagsAndDir, h1, h]
    · simp [chooseFlagsAndDir, h1, h2, h]
  rw [key o h, key o' h']

theorem replayLoop_same (h : SameButObjects o o') {ob : Object} (ho : Chosen o ob) (ho' : Chosen o' ob) (y : Sys) (m : Bool)
    (l : List (Exe × Str)) : replayLoop o y m l = replayLoop o' y m l := by
  induction l with
  | nil => rfl
  | cons x r ih =>
    obtain ⟨e, t⟩ := x
    unfold replayLoop
    simp only [choose_same ho ho', forEachEntry_same h, ih]

theorem gather_same (h : SameButObjects o o') (hf : includeFuzzing o = includeFuzzing o') (y : Sys) :
    gather o y = gather o' y := by
  have e1 : optsTargetDirectory o y.ctx = optsTargetDirectory o' y.ctx := by
    unfold optsTargetDirectory includeCoverage
    rw [coverage_same h, hf]
  have e2 : ∀ d, buildArgs o d = buildArgs o' d := by
    intro d
    unfold buildArgs
    rw [hf, show includeCoverage o = includeCoverage o' by unfold includeCoverage; rw [coverage_same h]]
    rw [← h.rest]
  have e3 : ∀ q, build o y q = build o' y q := by
    intro q
    unfold build
    simp only [e1, e2, show o.verbose = o'.verbose by rw [← h.rest]]
  have e4 : ∀ l, selectTargets o l = selectTargets o' l := by intro l; rw [← h.rest]; rfl
  have e5 : ∀ a b c, llvmEnvs o a b c = llvmEnvs o' a b c := by intro a b c; rw [← h.rest]; rfl
  unfold gather
  simp only [e1, e3, e4, e5, show o.manifestPath = o'.manifestPath by rw [← h.rest], coverage_same h,
    isSome_of_none_iff h.display, isSome_of_none_iff h.replay]

theorem storage_same (h : SameButObjects o o') (c : Ctx) (ls : Lister) (ets) : storage o c ls ets = storage o' c ls ets := by
  have a1 : o.consolidateAll = o'.consolidateAll := by rw [← h.rest]
  have a2 : o.resetAll = o'.resetAll := by rw [← h.rest]
  have a3 : o.consolidate = o'.consolidate := by rw [← h.rest]
  have e1 : ∀ l, consolidateLoop o c ls l = consolidateLoop o' c ls l := by
    intro l
    induction l with
    | nil => rfl
    | cons x r ih => obtain ⟨e, ts⟩ := x; simp only [consolidateLoop, ih, a1]
  have e2 : ∀ l, resetLoop o c l = resetLoop o' c l := by
    intro l
    induction l with
    | nil => rfl
    | cons x r ih => obtain ⟨e, ts⟩ := x; simp only [resetLoop, ih, a2]
  unfold storage consolidate reset
  simp only [e1, e2, a1, a2, a3]

theorem dispatch_same (h : SameButObjects o o') {ob : Object} (ho : Chosen o ob) (ho' : Chosen o' ob) (y : Sys) (llvm ets) :
    dispatch o y llvm ets = dispatch o' y llvm ets := by
  have e1 : replayAll o y llvm ets = replayAll o' y llvm ets := by
    unfold replayAll
    simp only [replayLoop_same h ho ho', coverage_same h,
      show flattenExecutableTargets o ets = flattenExecutableTargets o' ets by rw [← h.rest]; rfl,
      show coverageReport o y llvm = coverageReport o' y llvm by rw [← h.rest]; rfl]
  have e2 : storageAll o y ets = storageAll o' y ets := by
    unfold storageAll
    rw [storage_same h, show wantsConsolidate o = wantsConsolidate o' by rw [← h.rest]; rfl]
  have hs : (o.coverage.isSome || o.display.isSome || o.replay.isSome) = true := by
    rcases ho with h | ⟨h1, h⟩ | ⟨h1, h2, h⟩ <;> simp [h]
  have hs' : (o'.coverage.isSome || o'.display.isSome || o'.replay.isSome) = true := by
    rcases ho' with h | ⟨h1, h⟩ | ⟨h1, h2, h⟩ <;> simp [h]
  unfold dispatch
  rw [e1, e2, hs, hs']
  rw [← h.rest]
  rfl

end

/-- **C103.** Only the object that comes first, in the order coverage, display, replay, matters: invocations that differ only in
the others do exactly the same, if they agree in whether instrumentation is left out and if both objects make sense. -/
theorem C103_ignored (o o' : Opts) (h : SameButObjects o o') (ob : Object) (ho : Chosen o ob) (ho' : Chosen o' ob)
    (hr : ∀ r, o.replay = some r → ¬ TypeNames r) (hr' : ∀ r, o'.replay = some r → ¬ TypeNames r)
    (hi : BuiltPlain o ↔ BuiltPlain o') (y : Sys) (s : RSt) : run o y s = run o' y s := by
  have h1 := effective_same h
  have ho1 := chosen_effective.mpr ho
  have ho1' := chosen_effective.mpr ho'
  have er : ∀ o : Opts, (effectiveOpts o).replay = o.replay := by intro o; unfold effectiveOpts; split <;> rfl
  have ef : ∀ o : Opts, includeFuzzing (effectiveOpts o) = includeFuzzing o := by
    intro o; unfold effectiveOpts; split <;> rfl
  have hf : includeFuzzing (effectiveOpts o) = includeFuzzing (effectiveOpts o') := by
    rw [ef, ef]
    have a := includeFuzzing_plain o hr
    have b := includeFuzzing_plain o' hr'
    rw [Bool.eq_iff_iff, ← not_iff_not, Bool.not_eq_true, Bool.not_eq_true, a, b, hi]
  have hc : checkObjects (effectiveOpts o) = checkObjects (effectiveOpts o') := by
    have key : ∀ o : Opts, (∀ r, o.replay = some r → ¬ TypeNames r) → checkReplay (effectiveOpts o) = .ok () := by
      intro o hr
      unfold checkReplay
      rw [er]
      cases hq : o.replay with
      | none => rfl
      | some r =>
        have := hr r hq
        cases r <;> first | rfl | exact absurd trivial this
    unfold checkObjects
    rw [key o hr, key o' hr']
    unfold checkCoverage
    rw [coverage_same h1]
  have hx : o.exitCode = o'.exitCode := by rw [← h.rest]
  have : runWithoutExitCode (effectiveOpts o) y = runWithoutExitCode (effectiveOpts o') y := by
    unfold runWithoutExitCode prepare
    simp only [hc, gather_same h1 hf, dispatch_same h1 ho1 ho1']
  unfold run
  rw [this, hx]


/-! ## Objects that are only shown -/

/-- No harness is started. -/
def NoHarness : Act → Prop
  | .harness .. => False
  | _ => True

theorem runEntry_raw (lim : Nat) (y : Sys) {f : Flags} (hf : f.raw = true) (a e p i) :
    Plain NoHarness (runEntry lim y f a e p i) := by
  unfold runEntry
  rw [if_pos hf]
  split
  · exact .pure _
  · exact .lift (.err _)

theorem forEachEntry_raw (o : Opts) (y : Sys) (e t) {f : Flags} (hf : f.raw = true) (d) :
    Plain NoHarness (forEachEntry o y e t f d) := by
  unfold forEachEntry
  refine .bind (.io _ (pathExists_noExit _)) fun _ => .bind (.lift (.ensure _ _)) fun _ =>
    .bind (.io _ (readDir_noExit _ _)) fun names => .bind ?_ fun _ => closing_plain _ _ fun _ => trivial
  generalize ({} : Seen) = se
  induction names generalizing se with
  | nil => exact .pure _
  | cons n ns ih =>
    unfold entriesLoop
    refine .bind (.io _ (openEntry_noExit _)) fun input => ?_
    split
    · exact ih _
    · refine .bind (runEntry_raw _ _ hf _ _ _ _) fun x => ?_
      obtain ⟨b, st⟩ := x
      exact .bind (reportEntry_plain _ _ _ _ _ fun _ => trivial) fun _ => ih _

theorem plain_bind_of {α β} {P : Act → Prop} {x : Out α} {f : α → Rm β} (hx : x.NoExit)
    (hf : ∀ a, x = .ok a → Plain P (f a)) : Plain P (Rm.lift x >>= f) := by
  intro s
  rw [Rm.bind_def, Rm.lift_run]
  cases hq : x with
  | ok a => exact hf a hq s
  | err e => exact ⟨fun c => by simp, [], by simp, by simp⟩
  | panic => exact ⟨fun c => by simp, [], by simp, by simp⟩
  | exit c => exact absurd hq (hx c)
  | crash => exact ⟨fun c => by simp, [], by simp, by simp⟩

theorem replayLoop_raw (o : Opts) (ob : Object) (ho : Chosen o ob) (ht : TypeNames ob) (y : Sys) (m l) :
    Plain NoHarness (replayLoop o y m l) := by
  induction l with
  | nil => exact .pure _
  | cons x l ih =>
    obtain ⟨exe, target⟩ := x
    unfold replayLoop printHeading
    refine .bind (.when (.bind (.lift (headingText_noExit _ _)) fun _ => .act trivial)) fun _ =>
      plain_bind_of (chooseFlagsAndDir_noExit _ _ _ _) fun fd hfd => ?_
    obtain ⟨f, d⟩ := fd
    have hfd : flagsAndDir y.ctx ob exe.name target = .ok (f, d) := by
      rcases ho with h | ⟨h1, h⟩ | ⟨h1, h2, h⟩
      · simpa [chooseFlagsAndDir, h] using hfd
      · simpa [chooseFlagsAndDir, h1, h] using hfd
      · simpa [chooseFlagsAndDir, h1, h2, h] using hfd
    exact .bind (forEachEntry_raw _ _ _ _ ((C32_objects _ _ _ _ _ _ hfd).2.mpr ht) _) fun _ => ih

/-- **C103.** If the object that comes first holds the names of types, as in `--display generic-args --replay crashes`, no
input is replayed at all. -/
theorem C103_only_shown (o : Opts) (ob : Object) (ho : Chosen o ob) (ht : TypeNames ob) (y : Sys) (s : RSt) :
    ∃ l, (run o y s).2.acts = s.acts ++ l ∧ l.filterMap harnessOf = [] := by
  have ho := chosen_effective.mpr ho
  rw [run_state]
  have hs : ((effectiveOpts o).coverage.isSome || (effectiveOpts o).display.isSome || (effectiveOpts o).replay.isSome) = true := by
    rcases ho with h | ⟨h1, h⟩ | ⟨h1, h2, h⟩ <;> simp [h]
  have hp : Plain NoHarness (runWithoutExitCode (effectiveOpts o) y) := by
    unfold runWithoutExitCode
    refine .bind (prepare_plain _ _ fun a ha => ?_) fun x => ?_
    · cases a <;> trivial
    · obtain ⟨llvm, ets⟩ := x
      simp only
      unfold dispatch
      rw [hs]
      split
      · exact .act trivial
      · split
        · exact .pure _
        · split
          · exact storageAll_plain _ _ _ trivial trivial
          · unfold replayAll coverageClean coverageReport
            refine .bind (.when (.bind (.lift (command_noExit _ _)) fun _ => mustSucceed_plain _ _ trivial)) fun _ =>
              .bind (.lift (flatten_noExit _ _)) fun _ => .bind (replayLoop_raw _ _ ho ht _ _ _) fun _ =>
              .when (.bind ?_ fun _ => .bind (.lift (command_noExit _ _)) fun _ => mustSucceed_plain _ _ trivial)
            unfold coverageWarning
            split
            · exact .lift (.err _)
            · exact .when (.act trivial)
  obtain ⟨-, l, h1, h2⟩ := hp s
  refine ⟨l, h1, List.filterMap_eq_nil_iff.mpr fun a ha => ?_⟩
  have := h2 a ha
  cases a <;> first | rfl | exact absurd this (by simp [NoHarness])

/-! ## Cases -/

open Demo

/-- C103_ignored: `--display corpus --replay crashes` and `--display corpus --replay queue-instrumented`. The corpus is replayed,
though there are no crashes to replay. -/
example : SameButObjects { opts with display := some .corpus, replay := some .crashes }
      { opts with display := some .corpus, replay := some .queueInstrumented } ∧
    Chosen { opts with display := some .corpus, replay := some .crashes } .corpus ∧
    Chosen { opts with display := some .corpus, replay := some .queueInstrumented } .corpus ∧
    BuiltPlain { opts with display := some .corpus, replay := some .crashes } ∧
    BuiltPlain { opts with display := some .corpus, replay := some .queueInstrumented } ∧
    (run { opts with display := some .corpus, replay := some .crashes } sys2 ⟨⟨fs2, 0⟩, []⟩).1 = .ok () ∧
    ((run { opts with display := some .corpus, replay := some .crashes } sys2 ⟨⟨fs2, 0⟩, []⟩).2.acts.filterMap
      harnessOf).map (fun x => x.2.2.2) = [some [1], some [2], some [3]] ∧
    (run { opts with replay := some .crashes } sys2 ⟨⟨fs2, 0⟩, []⟩).1 ≠ .ok () := by
  refine ⟨⟨rfl, by simp, by simp⟩, .inr (.inl ⟨rfl, rfl⟩), .inr (.inl ⟨rfl, rfl⟩), .inr (.inr (.inl ⟨_, rfl, fun h => h⟩)),
    .inr (.inr (.inl ⟨_, rfl, fun h => h⟩)), by decide +kernel, by decide +kernel, by decide +kernel⟩

/-- C103_ignored needs the agreement on instrumentation: with `--display corpus-instrumented`, `--replay corpus` makes the
build one without instrumentation, `--replay corpus-instrumented` does not. -/
example : Chosen { opts with display := some .corpusInstrumented, replay := some .corpus } .corpusInstrumented ∧
    ((run { opts with display := some .corpusInstrumented, replay := some .corpus } sys2 ⟨⟨fs2, 0⟩, []⟩).2.acts ≠
      (run { opts with display := some .corpusInstrumented, replay := some .corpusInstrumented } sys2 ⟨⟨fs2, 0⟩, []⟩).2.acts) := by
  refine ⟨.inr (.inl ⟨rfl, rfl⟩), by decide +kernel⟩

/-- C103_only_shown: the corpus is not replayed. -/
example : Chosen { opts with display := some .genericArgs, replay := some .corpus } .genericArgs ∧ TypeNames .genericArgs ∧
    (run { opts with display := some .genericArgs, replay := some .corpus } sys2 ⟨⟨fun p =>
      if p = [c%"t", c%"generic_args", c%"p::a"] then some .dir else if p = [c%"t", c%"generic_args", c%"p::b"] then some .dir
      else fs2 p, 0⟩, []⟩).1 = .ok () := by
  refine ⟨.inr (.inl ⟨rfl, rfl⟩), trivial, ?_⟩
  decide +kernel

end TF
