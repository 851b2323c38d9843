import Verif.Spec.Fairness
import Verif.Props.Exact
import Verif.Props.FuzzCases

/-! # C37: no target is starved -/

namespace TF

open Spec

section

variable {k : FCfg} {inp : Nat → Inp} {ss : Nat → FState}

theorem Spec.Endless.reach (h : Endless k inp ss) (i : Nat) : Reach k (ss i) := by
  induction i with
  | zero => rw [h.start]; exact .init
  | succ i ih => exact .step ih (h.step i)

theorem iterate_log {s s' : FState} {x : Inp} (h : iterate k x s = .ok (.cont s')) : s.log <+: s'.log := by
  obtain ⟨s1, h1, -, ⟨hw, h2⟩ | ⟨hw, hn, evs, -, h2⟩⟩ := iterate_cont h
  · obtain ⟨bufs, hs1⟩ := refreshState_eq h1
    have hl : s1.log = s.log := by rw [hs1]
    rw [← hl]
    unfold schedule at h2
    split at h2
    · cases h2
    · simp only at h2
      split at h2
      · cases h2; exact ⟨_, rfl⟩
      · split at h2
        · cases h2
        · cases hk : k.sufficient with
          | true => rw [hk] at h2; cases h2
          | false => rw [hk] at h2; cases h2; exact ⟨_, rfl⟩
        · have : ∃ u, assert (decide (s1.iTask < k.n) || !k.sufficient) = .ok u := by
            cases ha : assert (decide (s1.iTask < k.n) || !k.sufficient) with
            | ok u => exact ⟨u, rfl⟩
            | _ => simp only [ha] at h2; cases h2
          obtain ⟨u, hu⟩ := this
          simp only [hu, Out.ok_bind] at h2
          split at h2
          · cases h2; exact ⟨_, rfl⟩
          · cases h2
  · obtain ⟨bufs, hs1⟩ := refreshState_eq h1
    have hl : s1.log = s.log := by rw [hs1]
    have := processEvents_log h2
    rw [← hl]
    exact (List.prefix_append _ _).trans this

theorem Spec.Endless.log (h : Endless k inp ss) {i j : Nat} (hij : i ≤ j) : (ss i).log <+: (ss j).log := by
  induction hij with
  | refl => exact List.prefix_refl _
  | step _ ih => exact ih.trans (iterate_log (h.step _))

theorem starts_prefix {a b : List LogEv} (t : Nat) (h : a <+: b) : starts t a ≤ starts t b := by
  obtain ⟨c, rfl⟩ := h
  rw [starts_append]; omega

theorem ends_prefix {a b : List LogEv} (t : Nat) (h : a <+: b) : ends t a ≤ ends t b := by
  obtain ⟨c, rfl⟩ := h
  rw [ends_append]; omega

theorem hasFailed_prefix {a b : List LogEv} {t : Nat} (h : a <+: b) (hf : HasFailed t a) : HasFailed t b := by
  obtain ⟨c, rfl⟩ := h
  exact (hasFailed_append _ _ _).mpr (.inl hf)

theorem running_or {s : FState} (h : Reach k s) (t : Nat) : Running t s.log ∨ starts t s.log = ends t s.log := by
  have := h.inv.bal t
  unfold Running
  unfold occN at this
  split at this <;> omega

theorem ends_le_allEnds (t : Nat) (l : List LogEv) : ends t l ≤ allEnds l := by
  unfold ends allEnds
  apply List.countP_mono_left
  intro e _ he
  cases e <;> first | rfl | cases he

theorem allStarts_le_considered (l : List LogEv) : allStarts l ≤ (l.filterMap considered).length := by
  induction l with
  | nil => exact Nat.le_refl _
  | cons e l ih =>
    cases e <;> simp only [allStarts, List.countP_cons, isAnyStart, List.filterMap_cons, considered, List.length_cons] at ih ⊢
    · simp only [if_true]; omega
    · simp only [Bool.false_eq_true, if_false]; omega
    · simpa using ih
    · simpa using ih

/-- Starts are considerations. -/
theorem starts_le_considered (t : Nat) (l : List LogEv) : starts t l ≤ (l.filterMap considered).length := by
  refine Nat.le_trans ?_ (allStarts_le_considered l)
  unfold starts allStarts
  apply List.countP_mono_left
  intro e _ he
  cases e <;> first | rfl | cases he

/-- As long as enough targets are left, events are waited for again and again. -/
theorem keepsWaiting (h : Endless k inp ss) (hnf : ∀ i, ¬ TooFewLeft k (ss i).log) : KeepsWaiting fun i => (ss i).log := by
  intro i
  obtain ⟨j, -, rest, hr⟩ := (C38_waits_exactly k (fun j => ss (i + j)) (fun j => inp (i + j)) (h.reach i)
    (fun j _ => h.step (i + j))).mpr (hnf i)
  exact ⟨i + j, Nat.le_add_right _ _, rest, hr⟩

theorem iTask_eq {s : FState} (h : Reach k s) : s.iTask = (s.log.filterMap considered).length := by
  rw [h.inv.cons]; simp

/-- A step that does not wait considers a target. -/
theorem step_cases (h : Endless k inp ss) (i : Nat) :
    (ss (i + 1)).iTask = (ss i).iTask + 1 ∨ ∃ rest, (ss (i + 1)).log = (ss i).log ++ .poll :: rest := by
  obtain ⟨s1, h1, -, ⟨hw, h2⟩ | ⟨hw, hn, evs, -, h2⟩⟩ := iterate_cont (h.step i)
  · obtain ⟨bufs, hs1⟩ := refreshState_eq h1
    left
    rw [(schedule_effect h2).2.1, hs1]
  · obtain ⟨bufs, hs1⟩ := refreshState_eq h1
    obtain ⟨rest, hr⟩ := processEvents_log h2
    right
    refine ⟨rest, ?_⟩
    rw [← hr]
    simp [hs1]

theorem iTask_mono (h : Endless k inp ss) {i j : Nat} (hij : i ≤ j) : (ss i).iTask ≤ (ss j).iTask := by
  rw [iTask_eq (h.reach i), iTask_eq (h.reach j)]
  obtain ⟨c, hc⟩ := h.log hij
  rw [← hc, List.filterMap_append, List.length_append]
  omega

/-- Targets are considered again and again. -/
theorem iTask_grows (h : Endless k inp ss) (hk : k.nCpus < k.targets.length)
    (hend : ∀ i t, Running t (ss i).log → ∃ j, i ≤ j ∧ ¬ Running t (ss j).log) (i : Nat) :
    ∃ j, i ≤ j ∧ (ss i).iTask < (ss j).iTask := by
  by_contra hcon
  push Not at hcon
  have hsf : k.sufficient = false := by
    cases hx : k.sufficient with
    | false => rfl
    | true => have := (sufficient_iff k).mp hx; omega
  have hconst : ∀ j, i ≤ j → (ss j).iTask = (ss i).iTask := fun j hj =>
    Nat.le_antisymm (hcon j hj) (iTask_mono h hj)
  -- every step waits
  have hwait : ∀ j, i ≤ j → allEnds (ss j).log < allStarts (ss j).log ∧ allStarts (ss j).log = allEnds (ss j).log + k.nCpus := by
    intro j hj
    rcases step_cases h j with hs | ⟨rest, hr⟩
    · have := hconst j hj
      have := hconst (j + 1) (by omega)
      omega
    · have := (h.reach (j + 1)).inv.good.at (ss j).log .poll rest hr
      exact ⟨this.1, this.2.2 hsf⟩
  -- a fuzzer that is running
  obtain ⟨t, ht⟩ : ∃ t, Running t (ss i).log := by
    by_contra hno
    push Not at hno
    have hi := (h.reach i).inv
    have h1 := (hwait i (Nat.le_refl _)).1
    have h2 := hi.tot
    have h3 := hi.cnt
    have : 0 < (occ (ss i).children).countP id := by omega
    obtain ⟨b, hb, hbt⟩ := List.countP_pos_iff.mp this
    obtain ⟨t, htl, rfl⟩ := List.mem_iff_getElem.mp hb
    refine hno t ?_
    have := hi.bal t
    unfold Running
    rw [this, occN, if_pos]
    rw [List.getElem?_eq_getElem htl]
    simpa using hbt
  obtain ⟨j, hj, hnr⟩ := hend i t ht
  obtain ⟨rest, hr⟩ := h.log hj
  have hcr : (rest.filterMap considered).length = 0 := by
    have e1 := iTask_eq (h.reach i)
    have e2 := iTask_eq (h.reach j)
    have e3 := hconst j hj
    rw [← hr, List.filterMap_append, List.length_append] at e2
    omega
  have hs0 : starts t rest = 0 := by have := starts_le_considered t rest; omega
  have ha0 : allStarts rest = 0 := by have := allStarts_le_considered rest; omega
  have hrun := running_or (h.reach j) t
  have hne : starts t (ss j).log = ends t (ss j).log := hrun.resolve_left hnr
  rw [← hr, starts_append, ends_append, hs0] at hne
  have he : 1 ≤ ends t rest := by unfold Running at ht; omega
  have hall := ends_le_allEnds t rest
  have w1 := (hwait i (Nat.le_refl _)).2
  have w2 := (hwait j hj).2
  rw [← hr, allStarts_append, allEnds_append] at w2
  omega

theorem iTask_unbounded (h : Endless k inp ss) (hk : k.nCpus < k.targets.length)
    (hend : ∀ i t, Running t (ss i).log → ∃ j, i ≤ j ∧ ¬ Running t (ss j).log) (i m : Nat) :
    ∃ j, i ≤ j ∧ (ss i).iTask + m ≤ (ss j).iTask := by
  induction m with
  | zero => exact ⟨i, Nat.le_refl _, Nat.le_refl _⟩
  | succ m ih =>
    obtain ⟨j, hj, hm⟩ := ih
    obtain ⟨l, hl, hlt⟩ := iTask_grows h hk hend j
    exact ⟨l, by omega, by omega⟩

/-- Among `n` successive numbers one is `t` modulo `n`. -/
theorem mem_map_mod {a b n t : Nat} (ht : t < n) (hab : a + n ≤ b) :
    t ∈ ((List.range b).map (· % n)).drop a := by
  have hn : 0 < n := by omega
  obtain ⟨j, hj, hji⟩ : ∃ j < n, (a + j) % n = t := by
    generalize hr : a % n = r
    have hrn : r < n := by rw [← hr]; exact Nat.mod_lt _ hn
    rcases Nat.lt_or_ge t r with hlt | hge
    · refine ⟨t + n - r, by omega, ?_⟩
      rw [Nat.add_mod, hr, Nat.mod_eq_of_lt (a := t + n - r) (by omega)]
      rw [show r + (t + n - r) = t + n by omega, Nat.add_mod_right, Nat.mod_eq_of_lt ht]
    · refine ⟨t - r, by omega, ?_⟩
      rw [Nat.add_mod, hr, Nat.mod_eq_of_lt (a := t - r) (by omega)]
      rw [show r + (t - r) = t by omega, Nat.mod_eq_of_lt ht]
  rw [List.mem_iff_getElem?]
  refine ⟨j, ?_⟩
  rw [List.getElem?_drop, List.getElem?_map, List.getElem?_range (by omega)]
  simp [hji]

/-- **C37.** In an execution without end in which no fuzzer runs for ever, each target is started again and again or fails –
as long as there are at least as many targets left as cpus. -/
theorem C37_no_starvation (h : Endless k inp ss) (hk : k.nCpus < k.targets.length) (hend : FuzzersEnd fun i => (ss i).log)
    (hnf : ∀ i, ¬ TooFewLeft k (ss i).log) (t : Nat) (ht : t < k.targets.length) :
    (∃ i, HasFailed t (ss i).log) ∨ KeepsStarting t fun i => (ss i).log := by
  have hend' := hend (keepsWaiting h hnf)
  by_contra hcon
  rw [not_or] at hcon
  obtain ⟨hfail, hkeep⟩ := hcon
  unfold KeepsStarting at hkeep
  push Not at hkeep hfail
  obtain ⟨i, hi⟩ := hkeep
  have hconst : ∀ j, i ≤ j → starts t (ss j).log = starts t (ss i).log := fun j hj =>
    Nat.le_antisymm (hi j hj) (starts_prefix t (h.log hj))
  -- from some time on it is not running
  obtain ⟨i1, hi1, hidle⟩ : ∃ i1, i ≤ i1 ∧ starts t (ss i1).log = ends t (ss i1).log := by
    rcases running_or (h.reach i) t with hr | hr
    · obtain ⟨j, hj, hnr⟩ := hend' i t hr
      exact ⟨j, hj, (running_or (h.reach j) t).resolve_left hnr⟩
    · exact ⟨i, Nat.le_refl _, hr⟩
  obtain ⟨m, hm, hgrow⟩ := iTask_unbounded h hk hend' i1 k.n
  obtain ⟨rest, hr⟩ := h.log hm
  have hmem : t ∈ rest.filterMap considered := by
    have e := (h.reach m).inv.cons
    have e1 := iTask_eq (h.reach i1)
    have := mem_map_mod (t := t) ht hgrow
    rw [FCfg.n] at e
    rw [← FCfg.n, FCfg.n] at this
    rw [← e, ← hr, List.filterMap_append, e1, List.drop_left] at this
    exact this
  obtain ⟨ev, hev, hcev⟩ := List.mem_filterMap.mp hmem
  obtain ⟨r1, r2, rfl⟩ := List.append_of_mem hev
  have hsplit : (ss m).log = ((ss i1).log ++ r1) ++ ev :: r2 := by rw [← hr]; simp
  have hgood := (h.reach m).inv.good.at _ _ _ hsplit
  have e1 := hconst i1 hi1
  have e2 := hconst m (by omega)
  rw [hsplit, starts_append, starts_append] at e2
  cases ev with
  | start tgt slot f =>
    have : tgt = t := by simpa [considered] using hcev
    subst this
    have : 1 ≤ starts tgt (.start tgt slot f :: r2) := by simp [starts, isStart]
    omega
  | skip u =>
    have : u = t := by simpa [considered] using hcev
    subst this
    rcases hgood.2.2.1 with hf | hrun
    · exact hfail m (hasFailed_prefix ⟨_, hsplit.symm⟩ hf)
    · rw [starts_append, ends_append] at hrun
      omega
  | poll => cases hcev
  | ended a b => cases hcev

/-- Once too few targets are left, nothing is noticed any more. -/
theorem tooFew_forever (h : Endless k inp ss) {i : Nat} (hf : TooFewLeft k (ss i).log) (m : Nat) :
    (ss (i + m)).failed = (ss i).failed ∧ TooFewLeft k (ss (i + m)).log ∧
      ∀ t, ends t (ss (i + m)).log = ends t (ss i).log := by
  induction m with
  | zero => exact ⟨rfl, hf, fun _ => rfl⟩
  | succ m ih =>
    obtain ⟨h1, h2, h3⟩ := ih
    obtain ⟨e1, e, he, hne⟩ := tooFew_step (h.reach (i + m)) h2 (h.step (i + m))
    have hfc : failedCount k.n (ss (i + m + 1)).log = failedCount k.n (ss (i + m)).log := by
      rw [← mem_failed_iff (h.reach (i + m)).inv, ← mem_failed_iff (h.reach (i + m + 1)).inv, e1]
    refine ⟨by rw [← h1]; exact e1, ⟨h2.1, ?_⟩, fun t => ?_⟩
    · have := h2.2
      unfold FCfg.n at hfc
      show _ < _ + failedCount _ (ss (i + m + 1)).log
      omega
    · rw [← h3 t]
      show ends t (ss (i + m + 1)).log = _
      rw [he, ends_append]
      cases e with
      | ended a b =>
        exfalso
        rcases step_cases h (i + m) with hs | ⟨rest, hr⟩
        · rw [iTask_eq (h.reach (i + m)), iTask_eq (h.reach (i + m + 1)), he, List.filterMap_append] at hs
          rw [List.length_append, Nat.add_left_cancel_iff] at hs
          cases hs
        · rw [he] at hr
          cases List.append_cancel_left hr
      | poll => exact absurd rfl hne
      | start a b c => simp [ends, isEnded]
      | skip a => simp [ends, isEnded]

/-- Exactly when time slicing is fair: each target is started again and again or fails, just if there are never fewer targets left
than cpus. -/
theorem C37_fair_exactly (h : Endless k inp ss) (hk : k.nCpus < k.targets.length) (hend : FuzzersEnd fun i => (ss i).log) :
    (∀ t < k.targets.length, (∃ i, HasFailed t (ss i).log) ∨ KeepsStarting t fun i => (ss i).log) ↔
      ∀ i, ¬ TooFewLeft k (ss i).log := by
  refine ⟨fun hall i hf => ?_, fun hnf t ht => C37_no_starvation h hk hend hnf t ht⟩
  -- some target has not failed
  obtain ⟨s1, h1, hne, -⟩ := iterate_cont (h.step i)
  obtain ⟨bufs, hs1⟩ := refreshState_eq h1
  have hne' : (ss i).failed.length ≠ k.n := by rw [hs1] at hne; exact hne
  rw [Ne, failed_all_iff (h.reach i).inv] at hne'
  push Not at hne'
  obtain ⟨t, ht, hnt⟩ := hne'
  rcases hall t ht with ⟨j, hj⟩ | hks
  · rcases Nat.le_total j i with hji | hij
    · exact hnt (hasFailed_prefix (h.log hji) hj)
    · obtain ⟨m, rfl⟩ := Nat.exists_eq_add_of_le hij
      refine hnt (((h.reach i).inv.fails t).mp ?_)
      rw [← (tooFew_forever h hf m).1]
      exact ((h.reach (i + m)).inv.fails t).mpr hj
  · obtain ⟨j1, hj1, hg1⟩ := hks i
    obtain ⟨j2, hj2, hg2⟩ := hks j1
    simp only at hg1 hg2
    obtain ⟨m, rfl⟩ := Nat.exists_eq_add_of_le (show i ≤ j2 by omega)
    have e := (tooFew_forever h hf m).2.2 t
    have r1 := running_or (h.reach (i + m)) t
    have r2 := running_or (h.reach i) t
    unfold Running at r1 r2
    omega

end

/-! ## A case: two targets on one cpu, for ever -/

namespace FairDemo

def k : FCfg := ⟨[c%"a", c%"b"], 1, true, false, List.length⟩

/-- The lines a fuzzer writes when it reaches its time limit. -/
def lines : Bytes := limitLine ++ abortedLine

/-- Even iterations start a fuzzer, odd ones learn that it has ended. -/
def inp (i : Nat) : Inp := if i % 2 = 0 then quiet else evs [endEv (i / 2 % 2) lines true]

/-- The log before the `i`-th start. -/
def log : Nat → List LogEv
  | 0 => []
  | i + 1 => log i ++ [.start (i % 2) (i % 2) (decide (i < 2))] ++ [.poll] ++ [.ended (i % 2) .timeLimit]

/-- What has been printed then. -/
def out : Nat → List Printed
  | 0 => []
  | i + 1 => out i ++ [.heading (i % 2)] ++ [.line (i % 2) c%"Time limit was reached"] ++
      [.line (i % 2) c%"+++ Testing aborted programmatically +++"]

def prev : Nat → Nat
  | 0 => 2
  | i + 1 => i % 2

def idle (i : Nat) : FState := ⟨0, i, i, [none, none], prev i, [], log i, out i⟩

def busy (i : Nat) : FState :=
  ⟨1, i + 1, i + 1, [none, none].set (i % 2) (some {}), prev i, [], log i ++ [.start (i % 2) (i % 2) (decide (i < 2))], out i⟩

def ss (i : Nat) : FState := if i % 2 = 0 then idle (i / 2) else busy (i / 2)

theorem idle_step (i : Nat) : iterate k quiet (idle i) = .ok (.cont (busy i)) := by
  have h1 : refreshState k quiet.term (idle i) = .ok (idle i) := rfl
  have h2 : wantsTask k (idle i) = true := by simp [wantsTask, idle, k, FCfg.sufficient, FCfg.n]
  have h3 : schedule k quiet.spawnOk (idle i) = .ok (busy i) := by
    have h : i % 2 = 0 ∨ i % 2 = 1 := by omega
    have hn : k.n = 2 := rfl
    have hs : k.sufficient = false := rfl
    have hc : [none, none][i % 2]? = some (none : Option FChild) := by rcases h with h | h <;> rw [h] <;> rfl
    simp only [schedule, hn, idle, hs, hc, List.not_mem_nil, if_false, Bool.not_false, Bool.or_true, assert, if_true]
    rfl
  unfold iterate
  rw [h1, Out.ok_bind, if_neg (show ¬ (idle i).failed.length = k.n by simp [idle, k, FCfg.n]), if_pos h2, h3]
  rfl

theorem busy_step (i : Nat) : iterate k (evs [endEv (i % 2) lines true]) (busy i) = .ok (.cont (idle (i + 1))) := by
  have h : i % 2 = 0 ∨ i % 2 = 1 := by omega
  have h1 : refreshState k none (busy i) = .ok (busy i) := by
    rcases h with h | h <;> (unfold busy; rw [h]; rfl)
  have h2 : wantsTask k (busy i) = false := by simp [wantsTask, busy, k]
  have hp : prev i ≠ i % 2 := by
    cases i with
    | zero => decide
    | succ i => show i % 2 ≠ (i + 1) % 2; omega
  unfold iterate
  have hterm : (evs [endEv (i % 2) lines true]).term = none := rfl
  rw [hterm, h1, Out.ok_bind, if_neg (show ¬ (busy i).failed.length = k.n by simp [busy, k, FCfg.n]), h2,
    if_neg (by decide), if_neg (show ¬ (busy i).nChildren = 0 by simp [busy])]
  have hidle : idle (i + 1) = ⟨0, i + 1, i + 1, [none, none], i % 2, [],
      log i ++ [.start (i % 2) (i % 2) (decide (i < 2))] ++ [.poll] ++ [.ended (i % 2) .timeLimit],
      out i ++ [.heading (i % 2)] ++ [.line (i % 2) c%"Time limit was reached"] ++
      [.line (i % 2) c%"+++ Testing aborted programmatically +++"]⟩ := rfl
  rw [hidle]
  unfold busy
  generalize log i = L
  generalize out i = O
  generalize decide (i < 2) = f
  generalize prev i = P at *
  clear hidle h1 h2
  rcases h with h | h <;> rw [h] at hp ⊢ <;> clear h hterm
  · cases P with
    | zero => exact absurd rfl hp
    | succ P => rfl
  · match P, hp with
    | 0, _ => rfl
    | 1, hp => exact absurd rfl hp
    | P + 2, _ => rfl

theorem endless : Endless k inp ss where
  start := rfl
  step := by
    intro i
    have h : i % 2 = 0 ∨ i % 2 = 1 := by omega
    rcases h with h | h
    · have e1 : (i + 1) % 2 ≠ 0 := by omega
      have e2 : (i + 1) / 2 = i / 2 := by omega
      simp only [inp, ss, if_pos h, if_neg e1, e2]
      exact idle_step _
    · have e0 : i % 2 ≠ 0 := by omega
      have e1 : (i + 1) % 2 = 0 := by omega
      have e2 : (i + 1) / 2 = i / 2 + 1 := by omega
      simp only [inp, ss, if_neg e0, if_pos e1, e2]
      exact busy_step _

theorem idle_starts (i t : Nat) : starts t (log i) = ends t (log i) ∧ ¬ HasFailed t (log i) := by
  induction i with
  | zero => exact ⟨rfl, by simp [HasFailed, log]⟩
  | succ i ih =>
    refine ⟨?_, ?_⟩
    · simp only [log, starts_append, ends_append, ih.1]
      by_cases ht : i % 2 = t <;> simp [starts, ends, isStart, isEnded, ht]
    · simp only [log, hasFailed_append]
      rintro (((h | h) | h) | h)
      · exact ih.2 h
      all_goals simp [HasFailed] at h

theorem fuzzersEnd : FuzzersEnd fun i => (ss i).log := by
  intro _ i t h
  refine ⟨2 * i, by omega, ?_⟩
  have e : ss (2 * i) = idle i := by
    simp only [ss, if_pos (show 2 * i % 2 = 0 by omega), show 2 * i / 2 = i by omega]
  simp only [e, Running, idle, (idle_starts i t).1]
  omega

/-- The hypotheses of `C37_fair_exactly`, and enough targets left. -/
example : Endless k inp ss ∧ k.nCpus < k.targets.length ∧ (FuzzersEnd fun i => (ss i).log) ∧ ∀ i, ¬ TooFewLeft k (ss i).log := by
  refine ⟨endless, by decide, fuzzersEnd, fun i h => ?_⟩
  have : ∀ t, ¬ HasFailed t (ss i).log := by
    intro t
    unfold ss
    split
    · exact (idle_starts _ t).2
    · show ¬ HasFailed t (log (i / 2) ++ _)
      rw [hasFailed_append]
      rintro (h | h)
      · exact (idle_starts _ t).2 h
      · simp [HasFailed] at h
  have h0 : failedCount k.targets.length (ss i).log = 0 := by
    unfold failedCount
    rw [List.length_eq_zero_iff, List.filter_eq_nil_iff]
    intro t _
    simpa using this t
  have := h.2
  rw [h0] at this
  exact absurd this (by decide)

end FairDemo

end TF
