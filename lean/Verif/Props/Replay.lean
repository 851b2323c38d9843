import Verif.Spec.Replay
import Verif.Props.Corpora

/-! # Display, replay and coverage of stored inputs: C32, C33 -/

namespace TF

open Spec

theorem skipName_iff (n : Str) : skipName n = true ↔ Bookkeeping n := by
  unfold skipName Bookkeeping; simp

theorem openEntry_reliable {y : Sys} (h : Reliable y) (p : Path) (s : RSt) (hp : s.world.fs p ≠ none) :
    Rm.io y (openEntry p) s =
      (.ok (contents s.world.fs p), { s with world := ⟨s.world.fs, s.world.tick + 1⟩ }) := by
  unfold Rm.io openEntry IOm.prim contents
  rw [h]
  rcases hn : s.world.fs p with _ | _ | _
  · exact absurd hn hp
  · simp [hn]
  · simp [hn]

theorem readDir_reliable {y : Sys} (h : Reliable y) (p : Path) (s : RSt) (hp : s.world.fs p = some .dir) :
    Rm.io y (readDir y.lister p) s =
      (.ok (y.lister s.world.fs p), { s with world := ⟨s.world.fs, s.world.tick + 1⟩ }) := by
  unfold Rm.io readDir IOm.prim FS.isDir
  rw [h]
  simp [hp]

/-- What `runEntry` can do. -/
theorem runEntry_cases (lim : Nat) (y : Sys) (f : Flags) (a : List Str) (e : Str) (p : Path) (i : Option Bytes) (s : RSt) :
    (∀ q, f.raw = true ∨ Spared y q → (runEntry lim y f a e p i s).2.world.fs q = s.world.fs q) ∧
    ∃ l, (runEntry lim y f a e p i s).2.acts = s.acts ++ l ∧ l.filterMap reportOf = [] ∧
      l.filterMap harnessOf = (if f.raw then [] else [(a, e, p, i)]) ∧
      ∀ b st, (runEntry lim y f a e p i s).1 = .ok (b, st) → f.raw = true → i = some b ∧ st = none := by
  unfold runEntry
  cases hr : f.raw with
  | true =>
    simp only [if_true]
    cases i with
    | none => exact ⟨fun _ _ => rfl, [], by simp, rfl, rfl, by simp⟩
    | some d => exact ⟨fun _ _ => rfl, [], by simp, rfl, rfl, by simp⟩
  | false =>
    simp only [Bool.false_eq_true, if_false]
    rw [Rm.bind_def]
    simp only [Rm.harness]
    have hW : ∀ q, False ∨ Spared y q → y.leaves (s.acts ++ [.harness a e p i]) s.world.fs q = s.world.fs q :=
      fun q hq => hq.resolve_left id _ _
    cases observe lim (y.harness (s.acts ++ [.harness a e p i])) with
    | startErr => exact ⟨hW, [_], rfl, rfl, rfl, fun _ _ _ h => nomatch h⟩
    | communicateErr => exact ⟨hW, [_], rfl, rfl, rfl, fun _ _ _ h => nomatch h⟩
    | finished b st =>
      dsimp only
      rw [Rm.bind_ok (Rm.act_run _ _)]
      cases st with
      | none => exact ⟨hW, [.harness a e p i, .wait], by simp, rfl, rfl, fun _ _ _ h => nomatch h⟩
      | some ok => exact ⟨hW, [.harness a e p i, .wait], by simp, rfl, rfl, fun _ _ _ h => nomatch h⟩
    | timedOut b k w =>
      dsimp only
      rw [Rm.bind_ok (Rm.act_run _ _)]
      cases k with
      | false => exact ⟨hW, [.harness a e p i, .kill], by simp, rfl, rfl, fun _ _ _ h => nomatch h⟩
      | true =>
        simp only [Bool.not_true, Bool.false_eq_true, if_false]
        rw [Rm.bind_ok (Rm.act_run _ _)]
        cases w with
        | false => exact ⟨hW, [.harness a e p i, .kill, .wait], by simp, rfl, rfl, fun _ _ _ h => nomatch h⟩
        | true => exact ⟨hW, [.harness a e p i, .kill, .wait], by simp, rfl, rfl, fun _ _ _ h => nomatch h⟩
    | readErr k =>
      dsimp only
      rw [Rm.bind_ok (Rm.act_run _ _)]
      cases k with
      | false => exact ⟨hW, [.harness a e p i, .kill], by simp, rfl, rfl, fun _ _ _ h => nomatch h⟩
      | true => exact ⟨hW, [.harness a e p i, .kill], by simp, rfl, rfl, fun _ _ _ h => nomatch h⟩

/-- The verdict for a harness that ended (or not). -/
def verdictOf : Option Bool → Verdict
  | none => .timeout
  | some ok => .status ok

theorem reportEntry_run (f : Flags) (n : Str) (b : Bytes) (st : Option Bool) (se : Seen) (s : RSt) :
    ∃ se' v, reportEntry f n b st se s = (.ok se', { s with acts := s.acts ++ [.report ⟨n, b, v⟩] }) ∧
      (f.raw = true → v = .raw) ∧ (f.raw = false → v = verdictOf st) ∧
      se'.nonempty = true ∧ se'.output = (se.output || !b.isEmpty) ∧
      se'.failure = (se.failure || decide (v = .status false)) ∧ se'.timeout = (se.timeout || decide (v = .timeout)) := by
  unfold reportEntry
  refine ⟨_, _, rfl, ?_, ?_, ?_⟩
  · intro h; simp [h]
  · intro h; cases st <;> simp [h, verdictOf]
  · cases hr : f.raw <;> rcases st with _ | _ | _ <;> cases b <;> cases se <;> simp

/-- The variables of the loop say what the reports say. -/
structure SeenIs (se : Seen) (rs : List Report) : Prop where
  nonempty : se.nonempty = true ↔ rs ≠ []
  failure : se.failure = true ↔ ∃ r ∈ rs, Failed r
  timeout : se.timeout = true ↔ ∃ r ∈ rs, TimedOut r
  output : se.output = true ↔ ∃ r ∈ rs, Wrote r

theorem reportEntry_seen {f n b st se s se' s'} {rs : List Report} (h : reportEntry f n b st se s = (.ok se', s'))
    (hs : SeenIs se rs) :
    ∃ v, s' = { s with acts := s.acts ++ [.report ⟨n, b, v⟩] } ∧ SeenIs se' (rs ++ [⟨n, b, v⟩]) ∧
      (f.raw = true → v = .raw) ∧ (f.raw = false → v = verdictOf st) := by
  obtain ⟨se1, v, h1, h2, h3, h4, h5, h6, h7⟩ := reportEntry_run f n b st se s
  rw [h1] at h
  cases h
  refine ⟨v, rfl, ⟨by simp [h4], ?_, ?_, ?_⟩, h2, h3⟩
  · simp only [h6, Bool.or_eq_true, hs.failure, decide_eq_true_eq, List.mem_append, List.mem_singleton, Failed]
    constructor
    · rintro (⟨r, hr, hv⟩ | hv)
      · exact ⟨r, Or.inl hr, hv⟩
      · exact ⟨_, Or.inr rfl, hv⟩
    · rintro ⟨r, hr | rfl, hv⟩
      · exact Or.inl ⟨r, hr, hv⟩
      · exact Or.inr hv
  · simp only [h7, Bool.or_eq_true, hs.timeout, decide_eq_true_eq, List.mem_append, List.mem_singleton, TimedOut]
    constructor
    · rintro (⟨r, hr, hv⟩ | hv)
      · exact ⟨r, Or.inl hr, hv⟩
      · exact ⟨_, Or.inr rfl, hv⟩
    · rintro ⟨r, hr | rfl, hv⟩
      · exact Or.inl ⟨r, hr, hv⟩
      · exact Or.inr hv
  · simp only [h5, Bool.or_eq_true, hs.output, List.mem_append, List.mem_singleton, Wrote]
    constructor
    · rintro (⟨r, hr, hv⟩ | hv)
      · exact ⟨r, Or.inl hr, hv⟩
      · exact ⟨_, Or.inr rfl, by cases b <;> simp_all⟩
    · rintro ⟨r, hr | rfl, hv⟩
      · exact Or.inl ⟨r, hr, hv⟩
      · exact Or.inr (by cases b <;> simp_all)

/-- The loop over the entries, whatever the harness does. -/
theorem entriesLoop_runs (lim : Nat) (y : Sys) (hy : Reliable y) (f : Flags) (a : List Str) (e : Str) (fs : FS) (dir : Path)
    (ns : List Str) (hns : ∀ n ∈ ns, fs (dir ++ [n]) ≠ none) (se : Seen) (rs : List Report) (hse : SeenIs se rs)
    (hsp : f.raw = true ∨ ∀ n, Spared y (dir ++ [n])) (s : RSt) (hfs : ∀ n, s.world.fs (dir ++ [n]) = fs (dir ++ [n])) :
    let names := ns.filter fun n => decide (¬ Bookkeeping n)
    (∀ q, f.raw = true ∨ Spared y q → (entriesLoop lim y f a e dir ns se s).2.world.fs q = s.world.fs q) ∧
    ∃ l, (entriesLoop lim y f a e dir ns se s).2.acts = s.acts ++ l ∧
      l.filterMap harnessOf <+:
        (if f.raw then [] else names.map fun n => (a, e, dir ++ [n], contents fs (dir ++ [n]))) ∧
      (l.filterMap reportOf).map Report.name <+: names ∧
      (f.raw = true → ∀ r ∈ l.filterMap reportOf, contents fs (dir ++ [r.name]) = some r.buffer ∧ r.verdict = .raw) ∧
      ∀ se', (entriesLoop lim y f a e dir ns se s).1 = .ok se' →
        l.filterMap harnessOf =
          (if f.raw then [] else names.map fun n => (a, e, dir ++ [n], contents fs (dir ++ [n]))) ∧
        (l.filterMap reportOf).map Report.name = names ∧ SeenIs se' (rs ++ l.filterMap reportOf) := by
  induction ns generalizing se rs s with
  | nil =>
    refine ⟨fun _ _ => rfl, [], by simp [entriesLoop], by simp, by simp, by simp, fun se' h => ?_⟩
    simp only [entriesLoop, Rm.pure_run, Out.ok.injEq] at h
    subst h
    exact ⟨by simp, rfl, by simpa using hse⟩
  | cons n ns ih =>
    have hn : fs (dir ++ [n]) ≠ none := hns n (by simp)
    have ih := fun se rs hse s hfs => ih (fun m hm => hns m (List.mem_cons_of_mem _ hm)) se rs hse s hfs
    unfold entriesLoop
    have hct : contents s.world.fs (dir ++ [n]) = contents fs (dir ++ [n]) := by unfold contents; rw [hfs]
    rw [Rm.bind_ok (openEntry_reliable hy _ s (by rw [hfs]; exact hn)), hct]
    by_cases hsk : skipName n = true
    · simp only [hsk, if_true]
      have hb := (skipName_iff n).mp hsk
      have hfilt : (n :: ns).filter (fun n => decide (¬ Bookkeeping n)) = ns.filter fun n => decide (¬ Bookkeeping n) := by
        rw [List.filter_cons_of_neg (by simpa using hb)]
      rw [hfilt]
      exact ih se rs hse _ hfs
    · have hb : ¬ Bookkeeping n := fun h => hsk ((skipName_iff n).mpr h)
      have hfilt : (n :: ns).filter (fun n => decide (¬ Bookkeeping n)) =
          n :: ns.filter fun n => decide (¬ Bookkeeping n) := by
        rw [List.filter_cons_of_pos (by simpa using hb)]
      simp only [hsk, Bool.false_eq_true, if_false]
      rw [hfilt]
      obtain ⟨hw, l1, h1, h2, h3, h4⟩ := runEntry_cases lim y f a e (dir ++ [n]) (contents fs (dir ++ [n]))
        { s with world := ⟨s.world.fs, s.world.tick + 1⟩ }
      rw [Rm.bind_def]
      generalize hr : runEntry lim y f a e (dir ++ [n]) (contents fs (dir ++ [n])) { s with world := ⟨s.world.fs, s.world.tick + 1⟩ } = w
      rw [hr] at hw h1 h4
      obtain ⟨w1, w2⟩ := w
      -- if the entry ends the loop
      have stop : (∀ v, w1 ≠ .ok v) → ∀ (r : Out Seen), (∀ v, r ≠ .ok v) →
          let names := n :: ns.filter fun n => decide (¬ Bookkeeping n)
          (∀ q, f.raw = true ∨ Spared y q → ((r, w2) : Out Seen × RSt).2.world.fs q = s.world.fs q) ∧
          ∃ l, w2.acts = s.acts ++ l ∧
            l.filterMap harnessOf <+:
              (if f.raw then [] else names.map fun n => (a, e, dir ++ [n], contents fs (dir ++ [n]))) ∧
            (l.filterMap reportOf).map Report.name <+: names ∧
            (f.raw = true → ∀ r ∈ l.filterMap reportOf, contents fs (dir ++ [r.name]) = some r.buffer ∧ r.verdict = .raw) ∧
            ∀ se', r = .ok se' →
              l.filterMap harnessOf =
                (if f.raw then [] else names.map fun n => (a, e, dir ++ [n], contents fs (dir ++ [n]))) ∧
              (l.filterMap reportOf).map Report.name = names ∧ SeenIs se' (rs ++ l.filterMap reportOf) := by
        intro _ r hrr
        refine ⟨hw, l1, h1, ?_, by rw [h2]; simp, fun _ => by rw [h2]; simp, fun se' h => absurd h (hrr se')⟩
        rw [h3]
        cases f.raw with
        | true => simp
        | false => simp
      cases w1 with
      | ok v =>
        obtain ⟨b, st⟩ := v
        dsimp only
        rw [Rm.bind_def]
        obtain ⟨se1, v, g1, -⟩ := reportEntry_run f n b st se w2
        obtain ⟨v', g2, g3, g4, g5⟩ := reportEntry_seen g1 hse
        simp only [RSt.mk.injEq, List.append_cancel_left_eq, true_and] at g2
        simp only [List.cons.injEq, Act.report.injEq, Report.mk.injEq, true_and, and_true] at g2
        subst g2
        rw [g1]
        dsimp only
        obtain ⟨k1, l2, k2, k3, k4, k5, k6⟩ := ih se1 (rs ++ [⟨n, b, v⟩]) g3
          { w2 with acts := w2.acts ++ [.report ⟨n, b, v⟩] } fun m => (hw _ (hsp.imp_right fun h => h m)).trans (hfs m)
        refine ⟨fun q hq => (k1 q hq).trans (hw q hq), l1 ++ [.report ⟨n, b, v⟩] ++ l2, ?_, ?_, ?_, ?_, ?_⟩
        · rw [k2]; simp only at h1 ⊢; rw [h1]; simp
        · rw [List.filterMap_append, List.filterMap_append, h3]
          cases hraw : f.raw with
          | true => simpa [hraw, harnessOf] using k3
          | false =>
            have : List.filterMap harnessOf [Act.report ⟨n, b, v⟩] = [] := rfl
            rw [this]
            simpa [hraw] using k3
        · rw [List.filterMap_append, List.filterMap_append, h2]
          simpa [reportOf] using k4
        · intro hraw r hrm
          rw [List.filterMap_append, List.filterMap_append, h2] at hrm
          simp only [List.nil_append, List.filterMap_cons, List.filterMap_nil, reportOf, List.singleton_append,
            List.mem_cons] at hrm
          rcases hrm with rfl | hrm
          · exact ⟨(h4 b st rfl hraw).1, g4 hraw⟩
          · exact k5 hraw r hrm
        · intro se' hok
          obtain ⟨m1, m2, m3⟩ := k6 se' hok
          refine ⟨?_, ?_, ?_⟩
          · rw [List.filterMap_append, List.filterMap_append, h3, m1]
            cases hraw : f.raw with
            | true => simp [harnessOf]
            | false => simp [harnessOf]
          · rw [List.filterMap_append, List.filterMap_append, h2]
            simpa [reportOf] using m2
          · rw [List.filterMap_append, List.filterMap_append, h2]
            simpa [reportOf] using m3
      | err x => exact stop (fun _ h => nomatch h) (.err x) (fun _ h => nomatch h)
      | panic => exact stop (fun _ h => nomatch h) .panic (fun _ h => nomatch h)
      | exit c => exact stop (fun _ h => nomatch h) (.exit c) (fun _ h => nomatch h)
      | crash => exact stop (fun _ h => nomatch h) .crash (fun _ h => nomatch h)

theorem presentParticiple_asked (o : Opts) (h : o.coverage.isSome ∨ o.display.isSome ∨ o.replay.isSome) :
    Asked o (presentParticiple o) := by
  unfold presentParticiple
  rcases hc : o.coverage with _ | c <;> rcases hd : o.display with _ | d <;> rcases hr : o.replay with _ | r
  · simp [hc, hd, hr] at h
  · exact .replay hc hd (by simp [hr])
  · exact .display hc (by simp [hd]) hr
  · exact .displayReplay hc (by simp [hd]) (by simp [hr])
  · exact .coverage (by simp [hc]) hd hr
  · exact .coverageReplay (by simp [hc]) hd (by simp [hr])
  · exact .coverageDisplay (by simp [hc]) (by simp [hd]) hr
  · exact .all (by simp [hc]) (by simp [hd]) (by simp [hr])

theorem closing_says (o : Opts) (ho : o.coverage.isSome ∨ o.display.isSome ∨ o.replay.isSome) (se : Seen)
    (rs : List Report) (hs : SeenIs se rs) (s : RSt) :
    ∃ notes, closing o se s = (.ok (), { s with acts := s.acts ++ notes.map Act.note }) ∧ Closing o rs notes := by
  have hassert : (!(!se.nonempty && (se.failure || se.timeout || se.output))) = true := by
    cases hne : se.nonempty with
    | true => simp
    | false =>
      have hnil : rs = [] := by
        by_contra hx; have := hs.nonempty.mpr hx; rw [hne] at this; cases this
      have e1 : se.failure = false := by
        cases hf : se.failure with
        | false => rfl
        | true => obtain ⟨r, hr, -⟩ := hs.failure.mp hf; rw [hnil] at hr; cases hr
      have e2 : se.timeout = false := by
        cases hf : se.timeout with
        | false => rfl
        | true => obtain ⟨r, hr, -⟩ := hs.timeout.mp hf; rw [hnil] at hr; cases hr
      have e3 : se.output = false := by
        cases hf : se.output with
        | false => rfl
        | true => obtain ⟨r, hr, -⟩ := hs.output.mp hf; rw [hnil] at hr; cases hr
      simp [e1, e2, e3]
  unfold closing
  rw [show assert (!(!se.nonempty && (se.failure || se.timeout || se.output))) = .ok () by unfold assert; rw [hassert]; rfl,
    Rm.lift_ok_bind]
  have hF : ∀ {P : Prop}, (se.failure = true → P) → (∃ r ∈ rs, Failed r) → P := fun h hx => h (hs.failure.mpr hx)
  by_cases h1 : se.nonempty = true
  · by_cases h2 : (!se.failure && !se.timeout && !se.output) = true
    · simp only [h1, h2, Bool.not_true, Bool.false_eq_true, if_false, if_true]
      refine ⟨_, rfl, .silent (hs.nonempty.mp h1) fun r hr => ?_⟩
      simp only [Bool.and_eq_true, Bool.not_eq_true'] at h2
      refine ⟨fun hh => ?_, fun hh => ?_, fun hh => ?_⟩
      · have := hs.failure.mpr ⟨r, hr, hh⟩; rw [h2.1.1] at this; cases this
      · have := hs.timeout.mpr ⟨r, hr, hh⟩; rw [h2.1.2] at this; cases this
      · have := hs.output.mpr ⟨r, hr, hh⟩; rw [h2.2] at this; cases this
    · by_cases h3 : ((se.failure || se.timeout) && o.coverage.isNone && o.replay.isNone) = true
      · simp only [h1, h2, h3, Bool.not_true, Bool.false_eq_true, if_false, if_true]
        simp only [Bool.and_eq_true, Option.isNone_iff_eq_none] at h3
        cases h4 : se.failure with
        | true =>
          simp only [if_true]
          exact ⟨_, rfl, .failure (hs.failure.mp h4) h3.1.2 h3.2⟩
        | false =>
          simp only [Bool.false_eq_true, if_false]
          refine ⟨_, rfl, .timeout (hs.timeout.mp ?_) (fun r hr hh => ?_) h3.1.2 h3.2⟩
          · simpa [h4] using h3.1.1
          · have := hs.failure.mpr ⟨r, hr, hh⟩; rw [h4] at this; cases this
      · simp only [h1, h2, h3, Bool.not_true, Bool.false_eq_true, if_false]
        refine ⟨[], by simp, .none ?_ ?_⟩
        · cases hf : se.failure with
          | true => obtain ⟨r, hr, hh⟩ := hs.failure.mp hf; exact ⟨r, hr, Or.inl hh⟩
          | false =>
            cases ht : se.timeout with
            | true => obtain ⟨r, hr, hh⟩ := hs.timeout.mp ht; exact ⟨r, hr, Or.inr (Or.inl hh)⟩
            | false =>
              obtain ⟨r, hr, hh⟩ := hs.output.mp (by simpa [hf, ht] using h2)
              exact ⟨r, hr, Or.inr (Or.inr hh)⟩
        · rintro ⟨r, hr, hh⟩
          have : (se.failure || se.timeout) = true := by
            rcases hh with hh | hh
            · simp [hs.failure.mpr ⟨r, hr, hh⟩]
            · simp [hs.timeout.mpr ⟨r, hr, hh⟩]
          rw [this] at h3
          rcases hc : o.coverage with _ | c <;> rcases hr : o.replay with _ | c' <;> simp_all
  · have hnil : rs = [] := by
      by_contra hx; exact h1 (hs.nonempty.mpr hx)
    simp only [h1, Bool.not_false, if_true]
    exact ⟨_, rfl, .nothing hnil (presentParticiple_asked o ho)⟩

/-- The same loop if harnesses can be started, killed and waited for: it does not end early. -/
theorem entriesLoop_survives (lim : Nat) (y : Sys) (hy : Reliable y) (hh : HarnessesRun y) (f : Flags) (hf : f.raw = false)
    (a : List Str) (e : Str) (fs : FS) (dir : Path) (ns : List Str) (hns : ∀ n ∈ ns, fs (dir ++ [n]) ≠ none)
    (hsp : ∀ n, Spared y (dir ++ [n])) (se : Seen) (s : RSt) (hfs : ∀ n, s.world.fs (dir ++ [n]) = fs (dir ++ [n])) :
    ∃ se' s' l, entriesLoop lim y f a e dir ns se s = (.ok se', s') ∧ s'.acts = s.acts ++ l ∧
      Replayed lim y a e fs dir s.acts (ns.filter fun n => decide (¬ Bookkeeping n)) l := by
  induction ns generalizing se s with
  | nil => exact ⟨se, s, [], rfl, by simp, .nil⟩
  | cons n ns ih =>
    have hn : fs (dir ++ [n]) ≠ none := hns n (by simp)
    have ih := fun se s hfs => ih (fun m hm => hns m (List.mem_cons_of_mem _ hm)) se s hfs
    unfold entriesLoop
    have hct : contents s.world.fs (dir ++ [n]) = contents fs (dir ++ [n]) := by unfold contents; rw [hfs]
    rw [Rm.bind_ok (openEntry_reliable hy _ s (by rw [hfs]; exact hn)), hct]
    by_cases hsk : skipName n = true
    · simp only [hsk, if_true]
      have hb := (skipName_iff n).mp hsk
      rw [List.filter_cons_of_neg (by simpa using hb)]
      exact ih se _ hfs
    · have hb : ¬ Bookkeeping n := fun h => hsk ((skipName_iff n).mpr h)
      simp only [hsk, Bool.false_eq_true, if_false]
      rw [List.filter_cons_of_pos (by simpa using hb)]
      have hrun : ∃ b st l1 F, runEntry lim y f a e (dir ++ [n]) (contents fs (dir ++ [n])) { s with world := ⟨s.world.fs, s.world.tick + 1⟩ } =
            (.ok (b, st), ⟨⟨F, s.world.tick + 1⟩, s.acts ++ l1⟩) ∧ (∀ m, F (dir ++ [m]) = fs (dir ++ [m])) ∧
          ((∃ w t ok k v, st = some ok ∧ b = w t ∧ t ≤ 1000 * lim ∧
              l1 = [.harness a e (dir ++ [n]) (contents fs (dir ++ [n])), .wait] ∧
              y.harness (s.acts ++ [.harness a e (dir ++ [n]) (contents fs (dir ++ [n]))]) = .runs w (some t) (some ok) k v) ∨
            (∃ w c st', st = none ∧ b = w (1000 * lim) ∧ (∀ t, c = some t → 1000 * lim < t) ∧
              l1 = [.harness a e (dir ++ [n]) (contents fs (dir ++ [n])), .kill, .wait] ∧
              y.harness (s.acts ++ [.harness a e (dir ++ [n]) (contents fs (dir ++ [n]))]) = .runs w c st' true true)) := by
        unfold runEntry
        simp only [hf, Bool.false_eq_true, if_false]
        rw [Rm.bind_def]
        simp only [Rm.harness]
        have hF : ∀ m, y.leaves (s.acts ++ [.harness a e (dir ++ [n]) (contents fs (dir ++ [n]))]) s.world.fs (dir ++ [m]) =
            fs (dir ++ [m]) := fun m => (hsp m _ _).trans (hfs m)
        have e1000 : lim * millisPerSec = 1000 * lim := by unfold millisPerSec; omega
        obtain ⟨w, c, ok, h⟩ := hh (s.acts ++ [.harness a e (dir ++ [n]) (contents fs (dir ++ [n]))])
        have late : (∀ t, c = some t → 1000 * lim < t) →
            observe lim (.runs w c (some ok) true true) = .timedOut (w (1000 * lim)) true true := by
          intro hc
          cases c with
          | none => simp [observe, e1000]
          | some t =>
            have := hc t rfl
            simp only [observe, e1000]
            rw [if_neg (by omega)]
        by_cases hc : ∀ t, c = some t → 1000 * lim < t
        · rw [h, late hc]
          refine ⟨_, none, [.harness a e (dir ++ [n]) (contents fs (dir ++ [n])), .kill, .wait], _, ?_, hF,
            Or.inr ⟨w, c, some ok, rfl, rfl, hc, rfl, rfl⟩⟩
          dsimp only
          rw [Rm.bind_ok (Rm.act_run _ _)]
          simp only [Bool.not_true, Bool.false_eq_true, if_false]
          rw [Rm.bind_ok (Rm.act_run _ _)]
          simp only [Rm.pure_run, List.append_assoc, List.cons_append, List.nil_append]
        · have : ∃ t, c = some t ∧ t ≤ 1000 * lim := by
            by_contra hx
            refine hc fun t ht => ?_
            by_contra hlt
            exact hx ⟨t, ht, by omega⟩
          obtain ⟨t, rfl, ht⟩ := this
          have hob : observe lim (.runs w (some t) (some ok) true true) = .finished (w t) (some ok) := by
            simp only [observe, e1000, if_pos ht]
          rw [h, hob]
          refine ⟨w t, some ok, [.harness a e (dir ++ [n]) (contents fs (dir ++ [n])), .wait], _, ?_, hF,
            Or.inl ⟨w, t, ok, true, true, rfl, rfl, ht, rfl, rfl⟩⟩
          dsimp only
          rw [Rm.bind_ok (Rm.act_run _ _)]
          simp only [Rm.pure_run, List.append_assoc, List.cons_append, List.nil_append]
      obtain ⟨b, st, l1, F, h1, hF, h2⟩ := hrun
      rw [Rm.bind_ok h1]
      dsimp only
      obtain ⟨se1, v, g1, -, g2, -⟩ := reportEntry_run f n b st se ⟨⟨F, s.world.tick + 1⟩, s.acts ++ l1⟩
      rw [Rm.bind_ok g1]
      obtain ⟨se', s', l, k1, k3, k4⟩ := ih se1 ⟨⟨F, s.world.tick + 1⟩, s.acts ++ l1 ++ [.report ⟨n, b, v⟩]⟩ hF
      refine ⟨se', s', l1 ++ [.report ⟨n, b, v⟩] ++ l, k1, by rw [k3]; simp, ?_⟩
      rcases h2 with ⟨w, t, ok, k, v', rfl, rfl, ht, rfl, h3⟩ | ⟨w, c, st', rfl, rfl, hc, rfl, h3⟩
      · have hv := g2 hf; simp only [verdictOf] at hv; subst hv
        exact .ended h3 ht (by simpa using k4)
      · have hv := g2 hf; simp only [verdictOf] at hv; subst hv
        exact .killed h3 hc (by simpa using k4)

/-- The loop prints no messages. -/
theorem entriesLoop_noNotes (lim : Nat) (y : Sys) (f a e d ns se) : Plain (fun x => noteOf x = none) (entriesLoop lim y f a e d ns se) := by
  induction ns generalizing se with
  | nil => exact .pure _
  | cons n ns ih =>
    unfold entriesLoop
    refine .bind (.io _ (openEntry_noExit _)) fun input => ?_
    split
    · exact ih _
    · refine .bind (runEntry_plain _ _ _ _ _ _ _ rfl rfl rfl) fun x => ?_
      obtain ⟨b, st⟩ := x
      exact .bind (reportEntry_plain _ _ _ _ _ fun _ => rfl) fun _ => ih _

/-! ## C32 -/

/-- Which objects `cargo test` produces, and which are shown without running anything. -/
theorem C32_objects (c : Ctx) (ob : Object) (krate target : Str) (f : Flags) (d : Path)
    (h : flagsAndDir c ob krate target = .ok (f, d)) :
    (f.requiresCargoTest = true ↔ FromTests ob) ∧ (f.raw = true ↔ TypeNames ob) := by
  unfold flagsAndDir at h
  cases ob <;> simp only [] at h
  all_goals
    (first
      | (cases hd : corpusDirFromTarget c krate target <;> rw [hd] at h)
      | (cases hd : crashesDirFromTarget c krate target <;> rw [hd] at h)
      | (cases hd : hangsDirFromTarget c krate target <;> rw [hd] at h)
      | (cases hd : queueDirFromTarget c krate target <;> rw [hd] at h)
      | (cases hd : implGenericArgsDirFromTarget c krate target <;> rw [hd] at h)
      | (cases hd : genericArgsDirFromTarget c krate target <;> rw [hd] at h))
  all_goals first | (cases h; done) | skip
  all_goals (rw [Out.ok_bind] at h; cases h; simp [FromTests, TypeNames])

/-- A missing directory is an error; the hint is given exactly for the objects that `cargo test` produces. -/
theorem C32_missing (o : Opts) (y : Sys) (hy : Reliable y) (exe : Exe) (ob : Object) (target : Str) (f : Flags)
    (dir : Path) (hd : flagsAndDir y.ctx ob exe.name target = .ok (f, dir)) (s : RSt) (h : s.world.fs dir = none) :
    ∃ msg, (forEachEntry o y exe target f dir s).1 = .err msg ∧ (forEachEntry o y exe target f dir s).2.acts = s.acts ∧
      (FromTests ob → msg = c%"Could not find `" ++ pathStr dir ++ c%"`. Did you remember to run `cargo test`?") ∧
      (¬ FromTests ob → msg = c%"Could not find `" ++ pathStr dir ++ c%"`") := by
  have hf := (C32_objects _ _ _ _ _ _ hd).1
  unfold forEachEntry
  rw [Rm.bind_ok (pathExists_reliable hy dir s)]
  have hex : s.world.fs.exists dir = false := by simp [FS.exists, h]
  rw [hex]
  refine ⟨_, rfl, rfl, fun ht => ?_, fun ht => ?_⟩
  · rw [hf.mpr ht]; simp
  · have : f.requiresCargoTest = false := by
      cases hq : f.requiresCargoTest with
      | false => rfl
      | true => exact absurd (hf.mp hq) ht
    rw [this]; simp

/-- A directory that cannot be looked at is reported as missing even if it is there; nothing is run or shown, and no file
changes. -/
theorem C32_unseen (o : Opts) (y : Sys) (exe : Exe) (target : Str) (f : Flags) (dir : Path) (s : RSt) (q)
    (h : y.plan s.world.tick = .err q) :
    ∃ more, (more = [] ∨ more = c%". Did you remember to run `cargo test`?") ∧
      (forEachEntry o y exe target f dir s).1 = .err (c%"Could not find `" ++ pathStr dir ++ c%"`" ++ more) ∧
      (forEachEntry o y exe target f dir s).2.acts = s.acts ∧
      (forEachEntry o y exe target f dir s).2.world.fs = s.world.fs := by
  have h1 : Rm.io y (pathExists dir) s = (.ok false, { s with world := ⟨s.world.fs, s.world.tick + 1⟩ }) := by
    unfold Rm.io pathExists
    rw [h]
  unfold forEachEntry
  rw [Rm.bind_ok h1]
  refine ⟨_, ?_, rfl, rfl, rfl⟩
  cases f.requiresCargoTest
  · exact .inl rfl
  · exact .inr rfl

/-- Each stored input of an existing directory is run at most once, in order, with its contents as standard input (not
at all if it is only shown), and reported at most once, whatever the harness does; exactly once, unless the command
fails. Contents that are only shown are shown exactly. Only harnesses change files; they are assumed to leave the stored inputs
alone. -/
theorem C32_once (o : Opts) (ho : o.coverage.isSome ∨ o.display.isSome ∨ o.replay.isSome) (y : Sys) (hy : Reliable y)
    (exe : Exe) (target : Str) (f : Flags) (dir : Path) (s : RSt) (hd : s.world.fs dir = some .dir)
    (hl : y.lister.Correct s.world.fs dir) (hsp : f.raw = true ∨ ∀ n, Spared y (dir ++ [n])) :
    let names := inputs y.lister s.world.fs dir
    let runs := if f.raw then [] else names.map fun n =>
      ([c%"--exact", target ++ c%"_fuzz__::entry", c%"--nocapture"], exe.path, dir ++ [n], contents s.world.fs (dir ++ [n]))
    names.Nodup ∧ (∀ n, n ∈ names ↔ s.world.fs (dir ++ [n]) ≠ none ∧ ¬ Bookkeeping n) ∧
    (∀ q, f.raw = true ∨ Spared y q → (forEachEntry o y exe target f dir s).2.world.fs q = s.world.fs q) ∧
    ∃ l, (forEachEntry o y exe target f dir s).2.acts = s.acts ++ l ∧
      l.filterMap harnessOf <+: runs ∧
      (l.filterMap reportOf).map Report.name <+: names ∧
      (f.raw = true → ∀ r ∈ l.filterMap reportOf,
        contents s.world.fs (dir ++ [r.name]) = some r.buffer ∧ r.verdict = .raw) ∧
      ((forEachEntry o y exe target f dir s).1 = .ok () →
        l.filterMap harnessOf = runs ∧ (l.filterMap reportOf).map Report.name = names ∧
        Closing o (l.filterMap reportOf) (l.filterMap noteOf)) := by
  intro names runs
  have hmem : ∀ n, n ∈ names ↔ s.world.fs (dir ++ [n]) ≠ none ∧ ¬ Bookkeeping n := by
    intro n
    simp only [names, inputs, List.mem_filter, decide_eq_true_eq, hl.2 n, Option.isSome_iff_ne_none]
  refine ⟨hl.1.filter _, hmem, ?_⟩
  unfold forEachEntry
  rw [Rm.bind_ok (pathExists_reliable hy dir s)]
  have hex : s.world.fs.exists dir = true := by simp [FS.exists, hd]
  rw [hex]
  simp only [ensure, if_true]
  rw [Rm.lift_ok_bind, Rm.bind_ok (readDir_reliable hy dir { s with world := ⟨s.world.fs, s.world.tick + 1⟩ } hd)]
  have hns : ∀ n ∈ y.lister s.world.fs dir, s.world.fs (dir ++ [n]) ≠ none := by
    intro n hn; rw [hl.2 n, Option.isSome_iff_ne_none] at hn; exact hn
  have hse : SeenIs {} [] := ⟨by simp, by simp, by simp, by simp⟩
  obtain ⟨k1, l, k2, k3, k4, k5, k6⟩ := entriesLoop_runs (timeLimit o) y hy f (entryArgs target) exe.path s.world.fs dir _ hns {} [] hse hsp
    { s with world := ⟨s.world.fs, s.world.tick + 1 + 1⟩ } fun _ => rfl
  rw [Rm.bind_def]
  dsimp only
  generalize hw : entriesLoop (timeLimit o) y f (entryArgs target) exe.path dir (y.lister s.world.fs dir) {}
    { s with world := ⟨s.world.fs, s.world.tick + 1 + 1⟩ } = w at k1 k2 k6 ⊢
  have hnn : l.filterMap noteOf = [] := by
    have := entriesLoop_noNotes (timeLimit o) y f (entryArgs target) exe.path dir (y.lister s.world.fs dir) {}
      { s with world := ⟨s.world.fs, s.world.tick + 1 + 1⟩ }
    rw [hw] at this
    obtain ⟨-, l', h1, h2⟩ := this
    have : l' = l := by rw [k2] at h1; simpa using h1.symm
    subst this
    rw [List.filterMap_eq_nil_iff]
    exact h2
  obtain ⟨w1, w2⟩ := w
  dsimp only at k1 k2 k6
  cases w1 with
  | ok se =>
    obtain ⟨m1, m2, m3⟩ := k6 se rfl
    obtain ⟨notes, c1, c2⟩ := closing_says o ho se _ m3 w2
    dsimp only
    rw [c1]
    have e1 : (notes.map Act.note).filterMap harnessOf = [] := by
      rw [List.filterMap_eq_nil_iff]; intro a ha; obtain ⟨n, -, rfl⟩ := List.mem_map.mp ha; rfl
    have e2 : (notes.map Act.note).filterMap reportOf = [] := by
      rw [List.filterMap_eq_nil_iff]; intro a ha; obtain ⟨n, -, rfl⟩ := List.mem_map.mp ha; rfl
    have e3 : (notes.map Act.note).filterMap noteOf = notes := by
      rw [List.filterMap_map]; exact List.filterMap_some
    refine ⟨k1, l ++ notes.map Act.note, by dsimp only; rw [k2, List.append_assoc], ?_, ?_, ?_, fun _ => ⟨?_, ?_, ?_⟩⟩
    · rw [List.filterMap_append, e1, List.append_nil]; exact k3
    · rw [List.filterMap_append, e2, List.append_nil]; exact k4
    · rw [List.filterMap_append, e2, List.append_nil]; exact k5
    · rw [List.filterMap_append, e1, List.append_nil]; exact m1
    · rw [List.filterMap_append, e2, List.append_nil]; exact m2
    · rw [List.filterMap_append, e2, List.append_nil, List.filterMap_append, e3, hnn]; exact c2
  | err x => exact ⟨k1, l, k2, k3, k4, k5, fun h => nomatch h⟩
  | panic => exact ⟨k1, l, k2, k3, k4, k5, fun h => nomatch h⟩
  | exit c => exact ⟨k1, l, k2, k3, k4, k5, fun h => nomatch h⟩
  | crash => exact ⟨k1, l, k2, k3, k4, k5, fun h => nomatch h⟩

/-! ## C33 -/

theorem timeLimit_is (o : Opts) : TimeLimit o (timeLimit o) := by
  unfold TimeLimit timeLimit
  cases o.timeout with
  | none => exact .inr ⟨rfl, rfl⟩
  | some n => exact .inl rfl

/-- Failing and hanging inputs do not stop a replay: as long as harnesses can be started, killed and waited for, all
inputs are run, each being reaped (and killed before if it does not close its standard error within the time given by
`--timeout`, or one second) before the next is started, the command succeeds, and the closing message says what was
seen. -/
theorem C33_survives (o : Opts) (ho : o.coverage.isSome ∨ o.display.isSome ∨ o.replay.isSome) (y : Sys) (hy : Reliable y)
    (hh : HarnessesRun y) (exe : Exe) (target : Str) (f : Flags) (hf : f.raw = false) (dir : Path) (s : RSt)
    (hd : s.world.fs dir = some .dir) (hl : y.lister.Correct s.world.fs dir) (hsp : ∀ n, Spared y (dir ++ [n])) :
    ∃ lim l notes, TimeLimit o lim ∧ (forEachEntry o y exe target f dir s).1 = .ok () ∧
      (forEachEntry o y exe target f dir s).2.acts = s.acts ++ l ++ notes.map Act.note ∧
      Replayed lim y (entryArgs target) exe.path s.world.fs dir s.acts (inputs y.lister s.world.fs dir) l ∧
      Closing o (l.filterMap reportOf) notes := by
  unfold forEachEntry
  rw [Rm.bind_ok (pathExists_reliable hy dir s)]
  have hex : s.world.fs.exists dir = true := by simp [FS.exists, hd]
  rw [hex]
  simp only [ensure, if_true]
  rw [Rm.lift_ok_bind, Rm.bind_ok (readDir_reliable hy dir { s with world := ⟨s.world.fs, s.world.tick + 1⟩ } hd)]
  have hns : ∀ n ∈ y.lister s.world.fs dir, s.world.fs (dir ++ [n]) ≠ none := by
    intro n hn; rw [hl.2 n, Option.isSome_iff_ne_none] at hn; exact hn
  have hse : SeenIs {} [] := ⟨by simp, by simp, by simp, by simp⟩
  obtain ⟨se, s', l, h1, h3, h4⟩ := entriesLoop_survives (timeLimit o) y hy hh f hf (entryArgs target) exe.path s.world.fs dir _ hns hsp
    {} { s with world := ⟨s.world.fs, s.world.tick + 1 + 1⟩ } fun _ => rfl
  have hk := entriesLoop_runs (timeLimit o) y hy f (entryArgs target) exe.path s.world.fs dir _ hns {} [] hse (.inr hsp)
    { s with world := ⟨s.world.fs, s.world.tick + 1 + 1⟩ } fun _ => rfl
  rw [h1] at hk
  obtain ⟨-, l', k2, -, -, -, k6⟩ := hk
  have : l' = l := by simp only at k2; rw [h3] at k2; simpa using k2.symm
  subst this
  obtain ⟨-, -, m3⟩ := k6 se rfl
  rw [Rm.bind_ok h1]
  obtain ⟨notes, c1, c2⟩ := closing_says o ho se _ m3 s'
  rw [c1]
  exact ⟨timeLimit o, l', notes, timeLimit_is o, rfl, by simp only [h3], h4, c2⟩

/-! ## Cases -/

open Demo in
/-- The first input fails, the second hangs. -/
example : (run { opts with replay := some .corpus, ztarget := some c%"a" } sys start).1 = .ok () ∧
    (run { opts with replay := some .corpus, ztarget := some c%"a" } sys start).2.acts.drop 3 =
      [.harness [c%"--exact", c%"a_fuzz__::entry", c%"--nocapture"] c%"/t/p" (corpus c%"a" ++ [c%"x"]) (some [1]),
       .wait, .report ⟨c%"x", bytes c%"oops", .status false⟩,
       .harness [c%"--exact", c%"a_fuzz__::entry", c%"--nocapture"] c%"/t/p" (corpus c%"a" ++ [c%"y"]) (some [2]),
       .kill, .wait, .report ⟨c%"y", [], .timeout⟩] := by decide +kernel

open Demo in
example : HarnessesRun sys ∧ sys.lister.Correct start.world.fs (corpus c%"a") ∧ start.world.fs (corpus c%"a") = some .dir ∧
    ∀ p, Spared sys p := by
  refine ⟨fun acts => ?_, ⟨by decide, fun n => ?_⟩, by decide +kernel, fun _ _ _ => rfl⟩
  · by_cases h : acts.length = 4
    · exact ⟨_, _, _, if_pos h⟩
    · exact ⟨_, _, _, if_neg h⟩
  · have h1 : sys.lister start.world.fs (corpus c%"a") = [c%"x", c%"y"] := by decide +kernel
    rw [h1]
    simp only [start, fs]
    by_cases hx : n = c%"x"
    · subst hx; decide +kernel
    · by_cases hy : n = c%"y"
      · subst hy; decide +kernel
      · simp [corpus, hx, hy]

open Demo in
example : (forEachEntry { opts with display := some .crashes } sys exe c%"a" ⟨false, false⟩ [c%"nowhere"] start).1 =
    .err c%"Could not find `/nowhere`" := by decide +kernel

open Demo in
/-- C32_unseen: the corpus is there. -/
example : start.world.fs (corpus c%"a") = some .dir ∧
    (forEachEntry { opts with display := some .corpus } { sys with plan := fun _ => .err ⟨0, fun _ => false⟩ } exe c%"a" ⟨true, false⟩
      (corpus c%"a") start).2.acts = start.acts := by
  obtain ⟨_, -, -, h, -⟩ := C32_unseen { opts with display := some .corpus } { sys with plan := fun _ => .err ⟨0, fun _ => false⟩ } exe
    c%"a" ⟨true, false⟩ (corpus c%"a") start _ rfl
  exact ⟨by decide +kernel, h⟩

end TF
