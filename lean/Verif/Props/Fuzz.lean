import Verif.Lemmas.Fuzz
import Mathlib.Data.List.Infix
import Mathlib.Data.List.Dedup

/-! # Scheduling of the fuzzers: C34–C38, C40 -/

namespace TF

open Spec

/-! ## C34 -/

theorem GoodLog.bounds {k : FCfg} {l : List LogEv} (h : GoodLog k l) :
    allEnds l ≤ allStarts l ∧ allStarts l ≤ allEnds l + k.nCpus ∧
      ∀ t, ends t l ≤ starts t l ∧ starts t l ≤ ends t l + 1 := by
  induction h with
  | nil => exact ⟨Nat.le_refl _, Nat.zero_le _, fun t => ⟨Nat.le_refl _, Nat.zero_le _⟩⟩
  | @snoc l ev hl hev ih =>
    obtain ⟨h0, h1, h2⟩ := ih
    cases ev with
    | start tgt slot first =>
      obtain ⟨e1, e2, e3, e4, e5, e6, e7⟩ := hev
      refine ⟨?_, ?_, fun t => ?_⟩
      · simp [allStarts, allEnds, isAnyStart, isAnyEnded] at h0 ⊢; omega
      · simp [allStarts, allEnds, isAnyStart, isAnyEnded] at e6 ⊢; omega
      · have := h2 t
        by_cases ht : tgt = t
        · subst ht
          simp [starts, ends, isStart, isEnded] at e3 ⊢
          omega
        · simp [starts, ends, isStart, isEnded, ht] at this ⊢
          omega
    | skip t0 =>
      refine ⟨by simpa [allStarts, allEnds, isAnyStart, isAnyEnded] using h0,
        by simpa [allStarts, allEnds, isAnyStart, isAnyEnded] using h1, fun t => ?_⟩
      simpa [starts, ends, isStart, isEnded] using h2 t
    | poll =>
      refine ⟨by simpa [allStarts, allEnds, isAnyStart, isAnyEnded] using h0,
        by simpa [allStarts, allEnds, isAnyStart, isAnyEnded] using h1, fun t => ?_⟩
      simpa [starts, ends, isStart, isEnded] using h2 t
    | ended t0 e =>
      obtain ⟨e1, e2, e3, e4, e5⟩ := hev
      refine ⟨?_, ?_, fun t => ?_⟩
      · simp [allStarts, allEnds, isAnyStart, isAnyEnded] at e5 ⊢; omega
      · simp [allStarts, allEnds, isAnyStart, isAnyEnded] at h1 ⊢; omega
      · have := h2 t
        by_cases ht : t0 = t
        · subst ht
          simp [starts, ends, isStart, isEnded] at e2 ⊢
          omega
        · simp [starts, ends, isStart, isEnded, ht] at this ⊢
          omega

/-- At every moment of every execution (after every prefix of the trace) the number of fuzzers started and
not ended is at most the number of cpus, and for each target at most one is started and not ended. -/
theorem C34_at_most_cpus_fuzzers (k : FCfg) (s : FState) (h : Reach k s) (pre : List LogEv) (hp : pre <+: s.log) :
    allStarts pre ≤ allEnds pre + k.nCpus ∧ ∀ t, starts t pre ≤ ends t pre + 1 := by
  have hb := (h.inv.good.prefix hp).bounds
  exact ⟨hb.2.1, fun t => (hb.2.2 t).2⟩

/-- A fuzzer is started in the slot of its own target. -/
theorem C34_slot_is_target (k : FCfg) (s : FState) (h : Reach k s) (tgt slot : Nat) (first : Bool)
    (hm : LogEv.start tgt slot first ∈ s.log) : slot = tgt ∧ tgt < k.targets.length := by
  obtain ⟨pre, post, he⟩ := List.append_of_mem hm
  have := h.inv.good.at pre _ post he
  exact ⟨this.1.symm, this.2.1⟩

/-- The running count is the number of occupied slots and the number of fuzzers started and not ended; a slot is
occupied exactly while its target's fuzzer runs. -/
theorem C34_running_count (k : FCfg) (s : FState) (h : Reach k s) :
    s.nChildren = s.children.countP Option.isSome ∧ allStarts s.log = allEnds s.log + s.nChildren ∧
      s.nChildren ≤ k.nCpus ∧ s.children.length = k.targets.length ∧
      ∀ t, (∃ c, s.children[t]? = some (some c)) ↔ starts t s.log = ends t s.log + 1 := by
  have hi := h.inv
  refine ⟨?_, hi.tot, hi.le, ?_, fun t => ?_⟩
  · have := hi.cnt
    rw [this, occ, List.countP_map]
    rfl
  · have := hi.len; simpa [occ, FCfg.n] using this
  · have hb := hi.bal t
    constructor
    · rintro ⟨c, hc⟩
      have : (occ s.children)[t]? = some true := occ_getElem.mpr ⟨_, hc, rfl⟩
      simpa [occN, this] using hb
    · intro he
      have : (occ s.children)[t]? = some true := by
        by_contra hc
        simp only [occN, if_neg hc] at hb
        omega
      obtain ⟨c, hc, hs⟩ := occ_getElem.mp this
      obtain ⟨c', rfl⟩ := Option.isSome_iff_exists.mp hs
      exact ⟨c', hc⟩

/-! ## C35 -/

theorem readLoop_ne_panic (r : List ReadRes) : readLoop r ≠ .panic := by
  induction r with
  | nil => simp [readLoop]
  | cons x r ih =>
    cases x with
    | data b =>
      unfold readLoop
      split
      · simp
      · cases hr : readLoop r with
        | panic => exact absurd hr ih
        | _ => simp [bind, Out.bind]
    | _ => simp [readLoop]

theorem takeText_ne_panic (u : Bytes) : takeText u ≠ .panic := by
  unfold takeText
  repeat' split
  all_goals simp

theorem processRead_ne_panic {k : FCfg} {ev : Event} {s : FState} (hlt : ev.token < k.n) {c : FChild}
    (hc : s.children[ev.token]? = some (some c)) : processRead k ev s ≠ .panic := by
  unfold processRead
  simp only [hlt, if_true, hc]
  cases h1 : readLoop ev.reads with
  | panic => exact absurd h1 (readLoop_ne_panic _)
  | ok b =>
    rw [Out.ok_bind]
    cases h2 : takeText (c.unprinted ++ b) with
    | panic => exact absurd h2 (takeText_ne_panic _)
    | ok p => rw [Out.ok_bind]; simp
    | _ => simp [bind, Out.bind]
  | _ => simp [bind, Out.bind]

theorem reap_ne_panic {k : FCfg} {ev : Event} {c : FChild} {s : FState} (h : s.nChildren ≠ 0) :
    reap k ev c s ≠ .panic := by
  unfold reap
  simp only [h, if_false]
  repeat' split
  all_goals simp

theorem processEvent_ne_panic {k : FCfg} {ev : Event} {s : FState} (hi : s.Inv k) {c : FChild}
    (hc : s.children[ev.token]? = some (some c)) : processEvent k ev s ≠ .panic := by
  have hocc0 : (occ s.children)[ev.token]? = some true := occ_getElem.mpr ⟨_, hc, rfl⟩
  have hlt : ev.token < k.n := by
    rw [← hi.len]; exact (List.getElem?_eq_some_iff.mp hocc0).1
  unfold processEvent
  cases h1 : processRead k ev s with
  | panic => exact absurd h1 (processRead_ne_panic hlt hc)
  | ok p =>
    obtain ⟨s1, c1⟩ := p
    rw [Out.ok_bind]
    simp only
    split
    · obtain ⟨hi1, hocc⟩ := Inv.processRead hi h1
      refine reap_ne_panic ?_
      have := countP_pos_of hocc
      have := hi1.cnt
      omega
    · simp
  | _ => simp [bind, Out.bind]

/-- An event changes the slot of its own child only. -/
theorem processEvent_other {k : FCfg} {ev : Event} {s s' : FState} (h : processEvent k ev s = .ok s') {i : Nat}
    (hne : ev.token ≠ i) : s'.children[i]? = s.children[i]? := by
  unfold processEvent at h
  cases h1 : processRead k ev s with
  | ok p =>
    obtain ⟨s1, c1⟩ := p
    rw [h1, Out.ok_bind] at h
    simp only at h
    obtain ⟨c0, b, text, rest, prev', printed', hc, hlt, -, -, -, rfl⟩ := processRead_occ h1
    split at h
    · obtain ⟨e, -, rfl⟩ := reap_ok h
      simp [List.getElem?_set_ne hne]
    · cases h
      simp [List.getElem?_set_ne hne]
  | _ => rw [h1] at h; cases h

theorem processEvents_ne_panic {k : FCfg} {evs : List Event} {s : FState} (hi : s.Inv k)
    (hv : ValidBatch s evs) : processEvents k evs s ≠ .panic := by
  induction evs generalizing s with
  | nil => simp [processEvents]
  | cons ev evs ih =>
    obtain ⟨hnd, hall⟩ := hv
    rw [List.map_cons, List.nodup_cons] at hnd
    obtain ⟨c, hc⟩ := hall ev (by simp)
    unfold processEvents
    cases h1 : processEvent k ev s with
    | panic => exact absurd h1 (processEvent_ne_panic hi hc)
    | ok s1 =>
      rw [Out.ok_bind]
      refine ih (Inv.processEvent hi h1) ⟨hnd.2, fun ev' hev' => ?_⟩
      rw [processEvent_other h1]
      · exact hall ev' (by simp [hev'])
      · intro he
        exact hnd.1 (List.mem_map.mpr ⟨ev', hev', he.symm⟩)
    | _ => simp [bind, Out.bind]

/-- No panic of the loop itself can happen, whatever the fuzzers do: if an iteration panics then it is drawing
the user interface that does. Poll is assumed to return events of running fuzzers, at most one for each. -/
theorem C35_loop_does_not_panic (k : FCfg) (hcpu : 1 ≤ k.nCpus) (s : FState) (h : Reach k s) (inp : Inp)
    (hv : ∀ evs, inp.poll = some evs → ValidBatch s evs)
    (hui : refreshState k inp.term s ≠ .panic) : iterate k inp s ≠ .panic := by
  unfold iterate
  cases h1 : refreshState k inp.term s with
  | panic => exact absurd h1 hui
  | ok s1 =>
    have hi := Inv.refresh h.inv h1
    obtain ⟨bufs, hs1⟩ := refreshState_eq h1
    rw [Out.ok_bind]
    split
    · simp
    · next hf =>
      have hn : k.n ≠ 0 := by
        intro hn
        have hnil : s1.failed = [] := by
          rw [List.eq_nil_iff_forall_not_mem]
          intro i hm
          have := hi.flt i hm
          omega
        rw [hnil] at hf
        exact hf (by simp [hn])
      split
      · next hw =>
        have hw' : s1.nChildren < k.nCpus ∧ (s1.iTask < k.n ∨ k.sufficient = false) := by
          simpa [wantsTask] using hw
        have hit : s1.iter = s1.iTask := hi.iter_eq
        have hmod : s1.iTask % k.n < k.n := Nat.mod_lt _ (Nat.pos_of_ne_zero hn)
        cases h2 : schedule k inp.spawnOk s1 with
        | ok s2 => rw [Out.ok_bind]; simp
        | panic =>
          exfalso
          unfold schedule at h2
          simp only [hn, if_false] at h2
          split at h2
          · cases h2
          · split at h2
            · next hnone =>
              have hl := hi.len
              rw [occ, List.length_map] at hl
              rw [List.getElem?_eq_none_iff] at hnone
              omega
            · next c hsome =>
              cases hs : k.sufficient with
              | false => simp [hs, assert] at h2
              | true =>
                have hlt : s1.iTask < k.n := by
                  rcases hw'.2 with h3 | h3
                  · exact h3
                  · rw [hs] at h3; cases h3
                rw [Nat.mod_eq_of_lt hlt] at hsome
                have hocc : (occ s1.children)[s1.iTask]? = some true := occ_getElem.mpr ⟨_, hsome, rfl⟩
                have hb := hi.bal s1.iTask
                have hz := hi.zero s1.iTask (Nat.le_refl _) hlt
                simp only [occN, hocc, if_true] at hb
                omega
            · have ha : (decide (s1.iTask < k.n) || !k.sufficient) = true := by
                rcases hw'.2 with h3 | h3 <;> simp [h3]
              rw [ha] at h2
              simp only [assert, if_true, Out.ok_bind] at h2
              split at h2 <;> cases h2
        | _ => simp [bind, Out.bind]
      · next hw =>
        split
        · next h0 =>
          have hw' : ¬ (s1.nChildren < k.nCpus ∧ (s1.iTask < k.n ∨ k.sufficient = false)) := by
            simpa [wantsTask] using hw
          have hs : k.sufficient = true := by
            by_contra hc
            exact hw' ⟨by omega, Or.inr (by simpa using hc)⟩
          have ht : decide (s1.iTask ≥ k.n) = true := by
            rw [decide_eq_true_eq]
            by_contra hc
            exact hw' ⟨by omega, Or.inl (by omega)⟩
          simp [hs, ht, assert]
        · next h0 =>
          cases hp : inp.poll with
          | none => simp
          | some evs =>
            simp only
            have hv1 : ValidBatch { s1 with log := s1.log ++ [.poll] } evs := by
              obtain ⟨h3, h4⟩ := hv evs hp
              refine ⟨h3, fun ev hev => ?_⟩
              obtain ⟨c, hc⟩ := h4 ev hev
              have : (occ s1.children)[ev.token]? = some true := by
                rw [hs1]; simp only [occ_putBuffers]
                exact occ_getElem.mpr ⟨_, hc, rfl⟩
              obtain ⟨c', hc', hs⟩ := occ_getElem.mp this
              obtain ⟨c'', rfl⟩ := Option.isSome_iff_exists.mp hs
              exact ⟨c'', hc'⟩
            have hi1 : FState.Inv k { s1 with log := s1.log ++ [.poll] } := by
              unfold FState.Inv at hi ⊢
              have hit : s1.iter = s1.iTask := hi.iter_eq
              rw [hit] at hi
              simp only [hit]
              refine hi.poll h0 ?_
              intro hc
              have : wantsTask k s1 = true := by simpa [wantsTask] using hc
              exact hw this
            cases h3 : processEvents k evs { s1 with log := s1.log ++ [.poll] } with
            | panic => exact absurd h3 (processEvents_ne_panic hi1 hv1)
            | ok s2 => rw [Out.ok_bind]; simp
            | _ => simp [bind, Out.bind]
  | _ => simp [bind, Out.bind]

/-- Without user interface, nothing is drawn. -/
theorem refreshState_noUi {k : FCfg} (h : k.noUi = true) (term) (s : FState) :
    ∃ s', refreshState k term s = .ok s' ∧ ∃ bufs, s' = { s with children := putBuffers s.children bufs } := by
  unfold refreshState refresh
  simp only [h, if_true, Out.ok_bind]
  exact ⟨_, rfl, _, rfl⟩

end TF
