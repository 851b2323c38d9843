import Verif.Props.Fuzz
import Mathlib.Data.List.Perm.Subperm

/-! # Scheduling of the fuzzers: C36, C37, C38, C40 -/

namespace TF

open Spec

/-! ## C36 -/

theorem GoodLog.started {k : FCfg} {l : List LogEv} (h : GoodLog k l) (hs : k.sufficient = true) :
    l.filterMap started = List.range (allStarts l) := by
  induction h with
  | nil => rfl
  | @snoc l ev hl hev ih =>
    rw [List.filterMap_append, ih]
    cases ev with
    | start tgt slot first =>
      obtain ⟨-, -, -, -, -, -, e7⟩ := hev
      have : allStarts (l ++ [.start tgt slot first]) = allStarts l + 1 := by
        rw [allStarts_append]; simp [allStarts, isAnyStart]
      rw [this, List.range_succ, e7 hs]
      simp [Spec.started]
    | _ => simp [Spec.started, allStarts, isAnyStart]

theorem sufficient_iff (k : FCfg) : k.sufficient = true ↔ k.targets.length ≤ k.nCpus := by
  simp [FCfg.sufficient, FCfg.n]

/-- With enough cpus the targets are started in order, each at most once, and none is skipped. -/
theorem C36_started_in_order (k : FCfg) (hs : k.targets.length ≤ k.nCpus) (s : FState) (h : Reach k s) :
    s.log.filterMap started = List.range (allStarts s.log) ∧ allStarts s.log ≤ k.targets.length ∧
      ∀ t, .skip t ∉ s.log := by
  have hs' := (sufficient_iff k).mpr hs
  refine ⟨h.inv.good.started hs', ?_, ?_⟩
  · rw [h.inv.suff hs']; exact h.inv.task hs'
  · intro t hm
    obtain ⟨pre, post, he⟩ := List.append_of_mem hm
    have := (h.inv.good.at pre _ post he).2.1
    rw [hs'] at this; cases this

theorem allStarts_prefix {a b : List LogEv} (h : a <+: b) : allStarts a ≤ allStarts b := by
  obtain ⟨c, rfl⟩ := h
  rw [allStarts_append]; omega

theorem starts_eq_count (t : Nat) (l : List LogEv) : starts t l = (l.filterMap started).count t := by
  induction l with
  | nil => rfl
  | cons e l ih =>
    cases e with
    | start tgt slot first =>
      simp only [starts, List.countP_cons, isStart, List.filterMap_cons, Spec.started, List.count_cons] at ih ⊢
      by_cases h : tgt = t <;> simp [h, ih]
    | _ =>
      simp only [starts, List.countP_cons, isStart, List.filterMap_cons, Spec.started] at ih ⊢
      simpa using ih

/-- With enough cpus: before the first wait (and so before every wait) each target has been started exactly
once, in order; and at every wait a fuzzer is running. -/
theorem C36_all_started_before_waiting (k : FCfg) (hs : k.targets.length ≤ k.nCpus) (s : FState) (h : Reach k s)
    (pre post : List LogEv) (he : s.log = pre ++ .poll :: post) :
    pre.filterMap started = List.range k.targets.length ∧ (∀ t < k.targets.length, starts t pre = 1) ∧
      allEnds pre < allStarts pre := by
  have hs' := (sufficient_iff k).mpr hs
  have hp : pre <+: s.log := ⟨_, he.symm⟩
  have hgood := h.inv.good.at pre _ post he
  obtain ⟨h1, h2, -⟩ := hgood
  have hle : allStarts pre ≤ k.targets.length :=
    Nat.le_trans (allStarts_prefix hp) (C36_started_in_order k hs s h).2.1
  have heq : allStarts pre = k.targets.length := Nat.le_antisymm hle (h2 hs')
  have hst := (h.inv.good.prefix hp).started hs'
  rw [heq] at hst
  refine ⟨hst, ?_, h1⟩
  intro t ht
  rw [starts_eq_count, hst]
  exact List.count_eq_one_of_mem List.nodup_range (List.mem_range.mpr ht)

theorem iterate_done {k : FCfg} {inp : Inp} {s s' : FState} (h : iterate k inp s = .ok (.done s')) :
    refreshState k inp.term s = .ok s' ∧ s'.failed.length ≠ k.n ∧ s'.nChildren = 0 ∧ k.sufficient = true ∧
      k.n ≤ s'.iTask := by
  unfold iterate at h
  cases h1 : refreshState k inp.term s with
  | ok s1 =>
    rw [h1, Out.ok_bind] at h
    split at h
    · cases h
    · next hf =>
      split at h
      · cases h2 : schedule k inp.spawnOk s1 with
        | ok s2 => rw [h2, Out.ok_bind] at h; cases h
        | _ => rw [h2] at h; cases h
      · split at h
        · next h0 =>
          cases hs : k.sufficient with
          | false => rw [hs] at h; cases h
          | true =>
            cases ht : decide (s1.iTask ≥ k.n) with
            | false => rw [hs, ht] at h; cases h
            | true =>
              rw [hs, ht] at h
              simp only [assert, if_true, Out.ok_bind] at h
              cases h
              exact ⟨rfl, hf, h0, rfl, by simpa using ht⟩
        · cases hp : inp.poll with
          | none => rw [hp] at h; cases h
          | some evs =>
            rw [hp] at h
            simp only at h
            cases h3 : processEvents k evs { s1 with log := s1.log ++ [.poll] } with
            | ok s2 => rw [h3, Out.ok_bind] at h; cases h
            | _ => rw [h3] at h; cases h
  | _ => rw [h1] at h; cases h

/-- The command ends normally only with enough cpus, and then each target was started exactly once and its fuzzer
has ended. -/
theorem C36_done (k : FCfg) (s s' : FState) (h : Reach k s) (inp : Inp) (hd : iterate k inp s = .ok (.done s')) :
    k.targets.length ≤ k.nCpus ∧ s'.log = s.log ∧ s.log.filterMap started = List.range k.targets.length ∧
      ∀ t < k.targets.length, starts t s.log = 1 ∧ ends t s.log = 1 := by
  obtain ⟨h1, h2, h3, h4, h5⟩ := iterate_done hd
  obtain ⟨bufs, hs1⟩ := refreshState_eq h1
  have hlog : s'.log = s.log := by rw [hs1]
  have htask : s'.iTask = s.iTask := by rw [hs1]
  have hn : s'.nChildren = s.nChildren := by rw [hs1]
  rw [htask] at h5
  rw [hn] at h3
  have hs := (sufficient_iff k).mp h4
  have hsu := h.inv.suff h4
  have hta := h.inv.task h4
  have heq : allStarts s.log = k.targets.length := by unfold FCfg.n at h5 hta; omega
  have ho := C36_started_in_order k hs s h
  rw [heq] at ho
  refine ⟨hs, hlog, ho.1, fun t ht => ?_⟩
  have hone := h.inv.one t ht (by unfold FCfg.n at h5; omega)
  have hb := h.inv.bal t
  have hz : occN (occ s.children) t = 0 := by
    have hc := h.inv.cnt
    rw [h3] at hc
    unfold occN
    split
    · next hx => have := countP_pos_of hx; omega
    · rfl
  have hle : starts t s.log ≤ 1 := by
    by_contra hcon
    rw [starts_eq_count, ho.1, List.count_eq_one_of_mem List.nodup_range (List.mem_range.mpr ht)] at hcon
    omega
  omega

theorem mem_failed_iff {k : FCfg} {s : FState} (hi : s.Inv k) :
    s.failed.length = failedCount k.n s.log := by
  unfold failedCount
  apply List.Perm.length_eq
  refine (List.perm_ext_iff_of_nodup hi.nodup (List.nodup_range.filter _)).mpr ?_
  intro t
  rw [List.mem_filter, List.mem_range, decide_eq_true_eq, ← hi.fails]
  exact ⟨fun h => ⟨hi.flt t h, h⟩, fun h => h.2⟩

theorem failed_all_iff {k : FCfg} {s : FState} (hi : s.Inv k) :
    s.failed.length = k.n ↔ ∀ t < k.targets.length, HasFailed t s.log := by
  rw [mem_failed_iff hi, failedCount]
  conv_lhs => rhs; rw [← List.length_range (n := k.n)]
  rw [List.length_filter_eq_length_iff]
  simp [FCfg.n]

/-- With enough cpus the command ends at the first iteration after all fuzzers have ended, unless all of them
failed. -/
theorem C36_ends_when_all_ended (k : FCfg) (hs : k.targets.length ≤ k.nCpus) (s : FState) (h : Reach k s)
    (hall : allEnds s.log = k.targets.length) (hnf : ∃ t < k.targets.length, ¬ HasFailed t s.log) (inp : Inp)
    (hui : ∃ s1, refreshState k inp.term s = .ok s1) : ∃ s', iterate k inp s = .ok (.done s') := by
  have hs' := (sufficient_iff k).mpr hs
  have hsu := h.inv.suff hs'
  have hta := h.inv.task hs'
  have htot := h.inv.tot
  obtain ⟨s1, h1⟩ := hui
  have hi1 := Inv.refresh h.inv h1
  obtain ⟨bufs, hs1⟩ := refreshState_eq h1
  have hn0 : s1.nChildren = 0 := by
    have : s1.nChildren = s.nChildren := by rw [hs1]
    unfold FCfg.n at hta
    omega
  have hit : s1.iTask = k.n := by
    have : s1.iTask = s.iTask := by rw [hs1]
    unfold FCfg.n at hta ⊢
    omega
  refine ⟨s1, ?_⟩
  unfold iterate
  rw [h1, Out.ok_bind]
  have hfl : s1.failed.length ≠ k.n := by
    intro hc
    obtain ⟨t, ht, hnf⟩ := hnf
    have := (failed_all_iff hi1).mp hc t ht
    rw [show s1.log = s.log from by rw [hs1]] at this
    exact hnf this
  have hw : wantsTask k s1 = false := by simp [wantsTask, hs', hit]
  simp [hfl, hw, hn0, hs', hit, assert]

/-! ## C37 -/

/-- Between two starts of a target every other target was considered; and when it was considered it was started,
unless it was running or had failed at that moment. -/
theorem C37_round_robin (k : FCfg) (s : FState) (h : Reach k s) (t sl sl' : Nat) (f f' : Bool)
    (a b c : List LogEv) (he : s.log = a ++ .start t sl f :: b ++ .start t sl' f' :: c) (u : Nat)
    (hu : u < k.targets.length) (hne : u ≠ t) :
    ∃ b1 ev b2, b = b1 ++ ev :: b2 ∧
      ((∃ sl'' f'', ev = .start u sl'' f'') ∨
       (ev = .skip u ∧ (HasFailed u (a ++ .start t sl f :: b1) ∨
          starts u (a ++ .start t sl f :: b1) = ends u (a ++ .start t sl f :: b1) + 1))) := by
  have hi := h.inv
  have hcons := hi.cons
  have htn : t < k.n := (hi.good.at a (.start t sl f) (b ++ .start t sl' f' :: c) (by rw [he]; simp)).2.1
  have hn : 0 < k.n := by omega
  have hu' : u < k.n := hu
  rw [he] at hcons
  simp only [List.filterMap_append, List.filterMap_cons, considered] at hcons
  -- positions
  generalize hA : a.filterMap considered = A at hcons
  generalize hB : b.filterMap considered = B at hcons
  generalize hC : c.filterMap considered = C at hcons
  have hlen : A.length + 1 + B.length + 1 + C.length = s.iTask := by
    have := congrArg List.length hcons
    simp at this
    omega
  have hget : ∀ i x, (A ++ t :: B ++ t :: C)[i]? = some x → x = i % k.n := by
    intro i x hx
    rw [hcons, List.getElem?_map] at hx
    obtain ⟨y, hy, hxy⟩ := Option.map_eq_some_iff.mp hx
    obtain ⟨hl, hy'⟩ := List.getElem?_eq_some_iff.mp hy
    rw [List.getElem_range] at hy'
    rw [← hxy, ← hy']
  have h1 := hget A.length t (by simp)
  have h2 := hget (A.length + 1 + B.length) t (by
    have hx : A.length + 1 + B.length = (A ++ t :: B).length := by simp; omega
    rw [hx, List.getElem?_append_right (Nat.le_refl _)]; simp)
  -- index of u
  obtain ⟨d, hd0, hdn, hdu⟩ : ∃ d, 0 < d ∧ d < k.n ∧ (A.length + d) % k.n = u := by
    refine ⟨(u + k.n - t) % k.n, ?_, Nat.mod_lt _ hn, ?_⟩
    · rw [Nat.pos_iff_ne_zero]
      intro h0
      rcases Nat.lt_or_gt_of_ne hne with hlt | hgt
      · rw [Nat.mod_eq_of_lt (by omega)] at h0; omega
      · have hx : u + k.n - t = (u - t) + k.n := by omega
        rw [hx, Nat.add_mod_right, Nat.mod_eq_of_lt (by omega)] at h0
        omega
    · rw [Nat.add_mod_mod, Nat.add_mod, ← h1]
      rcases Nat.lt_or_ge u t with hlt | hge
      · rw [Nat.mod_eq_of_lt (a := u + k.n - t) (by omega)]
        have hx : t + (u + k.n - t) = u + k.n := by omega
        rw [hx, Nat.add_mod_right, Nat.mod_eq_of_lt hu']
      · have hx : u + k.n - t = (u - t) + k.n := by omega
        rw [hx, Nat.add_mod_right, Nat.mod_eq_of_lt (a := u - t) (by omega)]
        have hx : t + (u - t) = u := by omega
        rw [hx, Nat.mod_eq_of_lt hu']
  have hgap : k.n ≤ 1 + B.length := by
    have hm : (A.length + (1 + B.length)) % k.n = A.length % k.n := by rw [← Nat.add_assoc, ← h2, ← h1]
    by_contra hc
    have hlt : 1 + B.length < k.n := by omega
    rw [Nat.add_mod, ← h1, Nat.mod_eq_of_lt hlt] at hm
    rcases Nat.lt_or_ge (t + (1 + B.length)) k.n with hx | hx
    · rw [Nat.mod_eq_of_lt hx] at hm; omega
    · rw [Nat.mod_eq_sub_mod hx, Nat.mod_eq_of_lt (by omega)] at hm; omega
  have hB1 : B[d - 1]? = some u := by
    obtain ⟨x, hx⟩ : ∃ x, B[d - 1]? = some x := by
      have hl : d - 1 < B.length := by omega
      exact ⟨_, List.getElem?_eq_getElem hl⟩
    have hy : (A ++ t :: B ++ t :: C)[A.length + d]? = some x := by
      rw [List.append_assoc, List.getElem?_append_right (by omega)]
      have hz : A.length + d - A.length = (d - 1) + 1 := by omega
      rw [hz, List.cons_append, List.getElem?_cons_succ]
      rw [List.getElem?_append_left (by
        by_contra hc
        rw [List.getElem?_eq_none_iff.mpr (by omega)] at hx; cases hx)]
      exact hx
    have := hget _ _ hy
    rw [hdu] at this
    rw [hx, this]
  have hmem : u ∈ b.filterMap considered := by rw [hB]; exact List.mem_of_getElem? hB1
  obtain ⟨ev, hev, hcu⟩ := List.mem_filterMap.mp hmem
  obtain ⟨b1, b2, hb⟩ := List.append_of_mem hev
  refine ⟨b1, ev, b2, hb, ?_⟩
  cases ev with
  | start tgt slot first =>
    simp only [considered, Option.some.injEq] at hcu
    subst hcu
    exact Or.inl ⟨_, _, rfl⟩
  | skip x =>
    simp only [considered, Option.some.injEq] at hcu
    subst hcu
    right
    refine ⟨rfl, ?_⟩
    exact (hi.good.at (a ++ .start t sl f :: b1) (.skip x) (b2 ++ .start t sl' f' :: c)
      (by rw [he, hb]; simp)).2.2.1
  | poll => cases hcu
  | ended x e => cases hcu

/-! ## C38 -/

theorem schedule_effect {k : FCfg} {s s' : FState} {b : Bool} (h : schedule k b s = .ok s') :
    s'.failed = s.failed ∧ s'.iTask = s.iTask + 1 ∧
      (∀ i : Nat, (occ s.children)[i]? = some true → (occ s'.children)[i]? = some true) ∧
      (s.iTask % k.n ∈ s.failed ∨ (occ s'.children)[s.iTask % k.n]? = some true) := by
  unfold schedule at h
  split at h
  · cases h
  · simp only at h
    split at h
    · next hf => cases h; exact ⟨rfl, rfl, fun _ h => h, Or.inl hf⟩
    · split at h
      · cases h
      · next c hc =>
        cases hs : k.sufficient with
        | true => rw [hs] at h; cases h
        | false =>
          simp only [hs, assert, Bool.not_false, if_true, Out.ok_bind] at h
          cases h
          exact ⟨rfl, rfl, fun _ h => h, Or.inr (occ_getElem.mpr ⟨_, hc, rfl⟩)⟩
      · next hc =>
        cases ha : (decide (s.iTask < k.n) || !k.sufficient) with
        | false => rw [ha] at h; cases h
        | true =>
          rw [ha] at h
          simp only [assert, if_true, Out.ok_bind] at h
          cases b with
          | false => cases h
          | true =>
            simp only [if_true] at h
            cases h
            have hl : s.iTask % k.n < (occ s.children).length := by
              have := (List.getElem?_eq_some_iff.mp hc).1
              simpa [occ] using this
            refine ⟨rfl, rfl, fun i hi => ?_, Or.inr ?_⟩
            · simp only [occ_set, Option.isSome_some]
              by_cases hx : s.iTask % k.n = i
              · subst hx; rw [List.getElem?_set_self hl]
              · rw [List.getElem?_set_ne hx]; exact hi
            · simp only [occ_set, Option.isSome_some]
              rw [List.getElem?_set_self hl]

/-- An event never removes anything from the trace. -/
theorem processEvent_log {k : FCfg} {ev : Event} {s s' : FState} (h : processEvent k ev s = .ok s') :
    s.log <+: s'.log := by
  unfold processEvent at h
  cases h1 : processRead k ev s with
  | ok p =>
    obtain ⟨s1, c1⟩ := p
    rw [h1, Out.ok_bind] at h
    simp only at h
    obtain ⟨c0, b, text, rest, prev', printed', hc, hlt, -, -, -, rfl⟩ := processRead_occ h1
    split at h
    · obtain ⟨e, -, rfl⟩ := reap_ok h
      exact List.prefix_append _ _
    · cases h; exact List.prefix_refl _
  | _ => rw [h1] at h; cases h

theorem processEvents_log {k : FCfg} {evs : List Event} {s s' : FState} (h : processEvents k evs s = .ok s') :
    s.log <+: s'.log := by
  induction evs generalizing s with
  | nil => cases h; exact List.prefix_refl _
  | cons ev evs ih =>
    unfold processEvents at h
    cases h1 : processEvent k ev s with
    | ok s1 => rw [h1, Out.ok_bind] at h; exact (processEvent_log h1).trans (ih h)
    | _ => rw [h1] at h; cases h

theorem countP_ge_of_all {o : List Bool} {failed : List Nat} (h : ∀ i, i < o.length → i ∈ failed ∨ o[i]? = some true) :
    o.length ≤ failed.length + o.countP id := by
  have h1 : (List.range o.length).Nodup := List.nodup_range
  have hsub : (List.range o.length) ⊆ failed ++ (List.range o.length).filter (fun i => o[i]? = some true) := by
    intro i hi
    rw [List.mem_append, List.mem_filter]
    rcases h i (List.mem_range.mp hi) with h | h
    · exact Or.inl h
    · exact Or.inr ⟨hi, by simpa using h⟩
  have hle := (List.subperm_of_subset h1 hsub).length_le
  rw [List.length_range, List.length_append] at hle
  have hcount : ((List.range o.length).filter (fun i => o[i]? = some true)).length = o.countP id := by
    rw [← List.countP_eq_length_filter]
    clear h h1 hsub hle
    induction o with
    | nil => rfl
    | cons x o ih =>
      rw [List.length_cons, List.range_succ_eq_map, List.countP_cons, List.countP_map, List.countP_cons, ← ih]
      congr 1
      cases x <;> simp
  omega

/-- Fuzzers' exits are noticed: in any `n + 1` consecutive iterations (`n` the number of targets) the loop waits
for events at least once, provided there are enough cpus for all targets or at least as many targets that have not
failed as cpus. What is missing is the case of fewer targets left: see `C38_livelock`. -/
theorem C38_waits_within_one_pass (k : FCfg) (ss : Nat → FState) (inp : Nat → Inp) (h0 : Reach k (ss 0))
    (hstep : ∀ i ≤ k.targets.length, iterate k (inp i) (ss i) = .ok (.cont (ss (i + 1))))
    (hc : k.targets.length ≤ k.nCpus ∨ k.nCpus + failedCount k.targets.length (ss 0).log ≤ k.targets.length) :
    ∃ i ≤ k.targets.length, ∃ rest, (ss (i + 1)).log = (ss i).log ++ .poll :: rest := by
  by_contra hcon
  push Not at hcon
  have hsched : ∀ i ≤ k.n, ∃ s1, refreshState k (inp i).term (ss i) = .ok s1 ∧ wantsTask k s1 = true ∧
      schedule k (inp i).spawnOk s1 = .ok (ss (i + 1)) := by
    intro i hi
    obtain ⟨s1, h1, -, ⟨hw, h2⟩ | ⟨hw, hn, evs, -, h2⟩⟩ := iterate_cont (hstep i hi)
    · exact ⟨s1, h1, hw, h2⟩
    · exfalso
      obtain ⟨rest, hr⟩ := processEvents_log h2
      obtain ⟨bufs, hs1⟩ := refreshState_eq h1
      refine hcon i hi rest ?_
      rw [← hr]
      simp [hs1]
  have hreach : ∀ i ≤ k.n + 1, Reach k (ss i) := by
    intro i
    induction i with
    | zero => intro _; exact h0
    | succ i ih => intro hi; exact .step (ih (by omega)) (hstep i (by unfold FCfg.n at hi; omega))
  have hinv : ∀ i ≤ k.n, (ss i).failed = (ss 0).failed ∧ (ss i).iTask = (ss 0).iTask + i ∧
      ∀ j < i, ((ss 0).iTask + j) % k.n ∈ (ss 0).failed ∨
        (occ (ss i).children)[((ss 0).iTask + j) % k.n]? = some true := by
    intro i
    induction i with
    | zero => intro _; exact ⟨rfl, rfl, fun j hj => absurd hj (Nat.not_lt_zero _)⟩
    | succ i ih =>
      intro hi
      obtain ⟨e1, e2, e3⟩ := ih (by omega)
      obtain ⟨s1, h1, -, h2⟩ := hsched i (by omega)
      obtain ⟨bufs, hs1⟩ := refreshState_eq h1
      obtain ⟨f1, f2, f3, f4⟩ := schedule_effect h2
      have g1 : s1.failed = (ss i).failed := by rw [hs1]
      have g2 : s1.iTask = (ss i).iTask := by rw [hs1]
      have g3 : occ s1.children = occ (ss i).children := by rw [hs1]; exact occ_putBuffers _ _
      refine ⟨by rw [f1, g1, e1], by rw [f2, g2, e2]; omega, fun j hj => ?_⟩
      by_cases hji : j < i
      · rcases e3 j hji with h | h
        · exact Or.inl h
        · exact Or.inr (f3 _ (by rw [g3]; exact h))
      · have : j = i := by omega
        subst this
        rw [g2, e2, g1, e1] at f4
        exact f4
  obtain ⟨s1, h1, hw, -⟩ := hsched k.n (Nat.le_refl _)
  obtain ⟨bufs, hs1⟩ := refreshState_eq h1
  have hw' : s1.nChildren < k.nCpus ∧ (s1.iTask < k.n ∨ k.sufficient = false) := by
    simpa [wantsTask] using hw
  obtain ⟨e1, e2, e3⟩ := hinv k.n (Nat.le_refl _)
  have hit : s1.iTask = (ss 0).iTask + k.n := by rw [hs1]; exact e2
  have hsf : k.sufficient = false := by
    rcases hw'.2 with h | h
    · omega
    · exact h
  have hc' : k.nCpus + failedCount k.n (ss 0).log ≤ k.n := by
    rcases hc with hc | hc
    · rw [(sufficient_iff k).mpr hc] at hsf; cases hsf
    · exact hc
  have hin := (hreach k.n (by omega)).inv
  have hall : ∀ i, i < (occ (ss k.n).children).length →
      i ∈ (ss 0).failed ∨ (occ (ss k.n).children)[i]? = some true := by
    intro i hi
    rw [hin.len] at hi
    have hn : 0 < k.n := by omega
    -- some j < n has (iTask + j) % n = i
    obtain ⟨j, hj, hji⟩ : ∃ j < k.n, ((ss 0).iTask + j) % k.n = i := by
      generalize hr : (ss 0).iTask % k.n = r
      have hrn : r < k.n := by rw [← hr]; exact Nat.mod_lt _ hn
      rcases Nat.lt_or_ge i r with hlt | hge
      · refine ⟨i + k.n - r, by omega, ?_⟩
        rw [Nat.add_mod, hr, Nat.mod_eq_of_lt (a := i + k.n - r) (by omega)]
        rw [show r + (i + k.n - r) = i + k.n by omega, Nat.add_mod_right, Nat.mod_eq_of_lt hi]
      · refine ⟨i - r, by omega, ?_⟩
        rw [Nat.add_mod, hr, Nat.mod_eq_of_lt (a := i - r) (by omega)]
        rw [show r + (i - r) = i by omega, Nat.mod_eq_of_lt hi]
    have := e3 j hj
    rw [hji] at this
    exact this
  have hge := countP_ge_of_all hall
  rw [hin.len, ← hin.cnt, mem_failed_iff h0.inv] at hge
  have hn1 : s1.nChildren = (ss k.n).nChildren := by rw [hs1]
  omega

/-- The states in which the loop is stuck: fuzzers are running, fewer than cpus, and every target is running or has
failed. -/
structure Stuck (k : FCfg) (l : List LogEv) : Prop where
  few_cpus : k.nCpus < k.targets.length
  running : allEnds l < allStarts l
  free : allStarts l < allEnds l + k.nCpus
  nothing : ∀ t < k.targets.length, HasFailed t l ∨ starts t l = ends t l + 1

theorem stuck_step {k : FCfg} {s : FState} (h : Reach k s) (hst : Stuck k s.log) (hnu : k.noUi = true) (inp : Inp) :
    ∃ s' t, iterate k inp s = .ok (.cont s') ∧ s'.log = s.log ++ [.skip t] ∧ Stuck k s'.log := by
  obtain ⟨s1, h1, bufs, hs1⟩ := refreshState_noUi hnu inp.term s
  have hi := Inv.refresh h.inv h1
  have hlog : s1.log = s.log := by rw [hs1]
  have htot := hi.tot
  rw [hlog] at htot
  obtain ⟨q1, q2, q3, q4⟩ := hst
  have hsf : k.sufficient = false := by
    cases hx : k.sufficient with
    | false => rfl
    | true => have := (sufficient_iff k).mp hx; omega
  have hw : wantsTask k s1 = true := by
    simp [wantsTask, hsf]; omega
  have hn : k.n ≠ 0 := by unfold FCfg.n; omega
  have hmod : s1.iTask % k.n < k.n := Nat.mod_lt _ (Nat.pos_of_ne_zero hn)
  have hfl : s1.failed.length ≠ k.n := by
    intro hc
    have hall := (failed_all_iff hi).mp hc
    have hpos : 0 < s1.nChildren := by omega
    rw [hi.cnt, List.countP_pos_iff] at hpos
    obtain ⟨x, hx, hxt⟩ := hpos
    obtain ⟨i, hil, hx'⟩ := List.mem_iff_getElem.mp hx
    have hfi := (hi.fails i).mpr (hall i (by rw [hi.len] at hil; exact hil))
    have := hi.fidle i hfi
    rw [List.getElem?_eq_getElem hil, hx'] at this
    simp at this hxt
    rw [this] at hxt; cases hxt
  have hskip : schedule k inp.spawnOk s1 =
      .ok { s1 with iter := s1.iter + 1, iTask := s1.iTask + 1, log := s1.log ++ [.skip (s1.iTask % k.n)] } := by
    unfold schedule
    simp only [hn, if_false]
    by_cases hf : s1.iTask % k.n ∈ s1.failed
    · simp [hf]
    · simp only [hf, if_false]
      have hrun := (q4 (s1.iTask % k.n) hmod).resolve_left (by
        rw [← hlog, ← hi.fails]; exact hf)
      have hb := hi.bal (s1.iTask % k.n)
      rw [hlog] at hb
      have hocc : (occ s1.children)[s1.iTask % k.n]? = some true := by
        by_contra hc
        simp only [occN, if_neg hc] at hb
        omega
      obtain ⟨c, hc, hcs⟩ := occ_getElem.mp hocc
      obtain ⟨c', rfl⟩ := Option.isSome_iff_exists.mp hcs
      simp [hc, hsf, assert]
  refine ⟨{ s1 with iter := s1.iter + 1, iTask := s1.iTask + 1, log := s1.log ++ [.skip (s1.iTask % k.n)] },
    s1.iTask % k.n, ?_, ?_, ?_⟩
  · unfold iterate
    rw [h1, Out.ok_bind]
    simp [hfl, hw, hskip]
  · simp [hlog]
  · simp only [hlog]
    refine ⟨q1, ?_, ?_, fun t ht => ?_⟩
    · simpa [allStarts, allEnds, isAnyStart, isAnyEnded] using q2
    · simpa [allStarts, allEnds, isAnyStart, isAnyEnded] using q3
    · rw [hasFailed_append]
      rcases q4 t ht with h | h
      · exact Or.inl (Or.inl h)
      · right; simpa [starts, ends, isStart, isEnded] using h

/-- The loop can get stuck: once fewer fuzzers than cpus are running, every other target has failed and there were
fewer cpus than targets to begin with, the loop runs forever without waiting, whatever the fuzzers do. -/
theorem C38_livelock (k : FCfg) (hnu : k.noUi = true) (s : FState) (h : Reach k s) (hst : Stuck k s.log)
    (inp : Nat → Inp) :
    ∃ ss : Nat → FState, ss 0 = s ∧ ∀ i, iterate k (inp i) (ss i) = .ok (.cont (ss (i + 1))) ∧
      ∃ t, (ss (i + 1)).log = (ss i).log ++ [.skip t] := by
  let nextOf : Nat → FState → FState := fun i s =>
    match iterate k (inp i) s with
    | .ok (.cont s') => s'
    | _ => s
  let ss : Nat → FState := fun i => Nat.rec s nextOf i
  have hstep : ∀ i, ss (i + 1) = nextOf i (ss i) := fun i => rfl
  have hgood : ∀ i, Reach k (ss i) ∧ Stuck k (ss i).log := by
    intro i
    induction i with
    | zero => exact ⟨h, hst⟩
    | succ i ih =>
      obtain ⟨s', t, h1, -, h3⟩ := stuck_step ih.1 ih.2 hnu (inp i)
      have : ss (i + 1) = s' := by rw [hstep]; simp only [nextOf, h1]
      rw [this]
      exact ⟨.step ih.1 h1, h3⟩
  refine ⟨ss, rfl, fun i => ?_⟩
  obtain ⟨s', t, h1, h2, -⟩ := stuck_step (hgood i).1 (hgood i).2 hnu (inp i)
  have : ss (i + 1) = s' := by rw [hstep]; simp only [nextOf, h1]
  rw [this]
  exact ⟨h1, t, h2⟩

/-! ## C40 -/

/-- After the fuzzer of a target failed (or ended without programmatic abort), the target is not started again. -/
theorem C40_failed_never_restarted (k : FCfg) (s : FState) (h : Reach k s) (pre post : List LogEv) (t sl : Nat)
    (f : Bool) (he : s.log = pre ++ .start t sl f :: post) : ¬ HasFailed t pre :=
  (h.inv.good.at pre _ post he).2.2.2.1

end TF
