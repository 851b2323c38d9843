import Verif.Spec.Fuzz
import Verif.Lemmas.Lines
import Mathlib.Tactic.Common

/-! Invariants of the fuzzing loop. -/

namespace TF

open Spec

/-! ### Traces -/

/-- What may be appended to a trace. -/
def GoodEv (k : FCfg) (l : List LogEv) : LogEv → Prop
  | .start t slot first => t = slot ∧ t < k.n ∧ starts t l = ends t l ∧ ¬ HasFailed t l ∧
      (first = true ↔ starts t l = 0) ∧ allStarts l < allEnds l + k.nCpus ∧
      (k.sufficient = true → t = allStarts l)
  | .skip t => t < k.n ∧ k.sufficient = false ∧ (HasFailed t l ∨ starts t l = ends t l + 1) ∧
      allStarts l < allEnds l + k.nCpus
  | .poll => allEnds l < allStarts l ∧ (k.sufficient = true → k.n ≤ allStarts l) ∧
      (k.sufficient = false → allStarts l = allEnds l + k.nCpus)
  | .ended t e => t < k.n ∧ starts t l = ends t l + 1 ∧ ¬ HasFailed t l ∧ (k.exitCode = true → e ≠ .early) ∧
      allEnds l < allStarts l

inductive GoodLog (k : FCfg) : List LogEv → Prop
  | nil : GoodLog k []
  | snoc {l ev} : GoodLog k l → GoodEv k l ev → GoodLog k (l ++ [ev])

theorem GoodLog.at {k : FCfg} {l : List LogEv} (h : GoodLog k l) :
    ∀ pre ev post, l = pre ++ ev :: post → GoodEv k pre ev := by
  induction h with
  | nil => intro pre ev post h; simp at h
  | @snoc l ev0 h1 h2 ih =>
    intro pre ev post h
    rcases List.eq_nil_or_concat post with rfl | ⟨post', x, rfl⟩
    · have := List.append_inj' h rfl
      simp only [List.cons.injEq, and_true] at this
      rw [← this.1, ← this.2]; exact h2
    · rw [List.concat_eq_append, ← List.cons_append, ← List.append_assoc] at h
      have := List.append_inj' h rfl
      exact ih pre ev post' this.1

theorem GoodLog.prefix {k : FCfg} {l pre : List LogEv} (h : GoodLog k l) (hp : pre <+: l) : GoodLog k pre := by
  induction h with
  | nil => rw [List.prefix_nil] at hp; subst hp; exact .nil
  | @snoc l ev0 h1 h2 ih =>
    rcases List.prefix_concat_iff.mp hp with h | h
    · subst h; exact .snoc h1 h2
    · exact ih h

/-! ### Counting -/

@[simp] theorem starts_append (t : Nat) (a b : List LogEv) : starts t (a ++ b) = starts t a + starts t b := by
  simp [starts]
@[simp] theorem ends_append (t : Nat) (a b : List LogEv) : ends t (a ++ b) = ends t a + ends t b := by
  simp [ends]
@[simp] theorem allStarts_append (a b : List LogEv) : allStarts (a ++ b) = allStarts a + allStarts b := by
  simp [allStarts]
@[simp] theorem allEnds_append (a b : List LogEv) : allEnds (a ++ b) = allEnds a + allEnds b := by
  simp [allEnds]

theorem hasFailed_append (t : Nat) (a b : List LogEv) :
    HasFailed t (a ++ b) ↔ HasFailed t a ∨ HasFailed t b := by
  simp [HasFailed]; tauto

/-! ### The core invariant -/

/-- Which slots are occupied. -/
def occ (cs : List (Option FChild)) : List Bool := cs.map Option.isSome

/-- 1 if the slot is occupied. -/
def occN (o : List Bool) (t : Nat) : Nat := if o[t]? = some true then 1 else 0

structure Core (k : FCfg) (nCh iTask iter : Nat) (o : List Bool) (failed : List Nat) (log : List LogEv) : Prop where
  len : o.length = k.n
  cnt : nCh = o.countP id
  le : nCh ≤ k.nCpus
  iter_eq : iter = iTask
  nodup : failed.Nodup
  flt : ∀ i ∈ failed, i < k.n
  fidle : ∀ i ∈ failed, o[i]? = some false
  task : k.sufficient = true → iTask ≤ k.n
  bal : ∀ t, starts t log = ends t log + occN o t
  tot : allStarts log = allEnds log + nCh
  fails : ∀ t, t ∈ failed ↔ HasFailed t log
  cons : log.filterMap considered = (List.range iTask).map (· % k.n)
  zero : ∀ t, iTask ≤ t → t < k.n → starts t log = 0
  one : ∀ t, t < k.n → t < iTask → 1 ≤ starts t log
  suff : k.sufficient = true → allStarts log = iTask
  good : GoodLog k log

def FState.Inv (k : FCfg) (s : FState) : Prop :=
  Core k s.nChildren s.iTask s.iter (occ s.children) s.failed s.log

theorem Inv.init (k : FCfg) : (FState.init k).Inv k where
  len := by simp [FState.init, occ]
  cnt := by
    simp [FState.init, occ, List.countP_replicate]
  le := Nat.zero_le _
  iter_eq := rfl
  nodup := List.nodup_nil
  flt := by simp [FState.init]
  fidle := by simp [FState.init]
  task := fun _ => Nat.zero_le _
  bal := by
    intro t
    simp only [FState.init, occN, starts, ends, List.countP_nil, occ, List.map_replicate, Option.isSome_none]
    split
    · next h =>
      have := List.mem_of_getElem? h
      rw [List.mem_replicate] at this
      exact absurd this.2 (by simp)
    · rfl
  tot := rfl
  fails := by simp [FState.init, HasFailed]
  cons := rfl
  zero := by intro t _ _; rfl
  one := by intro t _ h; exact absurd h (Nat.not_lt_zero _)
  suff := fun _ => rfl
  good := .nil

/-- An idle slot, as a bit. -/
theorem occN_set_self {o : List Bool} {t : Nat} (h : t < o.length) (b : Bool) :
    occN (o.set t b) t = if b then 1 else 0 := by
  unfold occN
  rw [List.getElem?_set_self h]
  cases b <;> simp

theorem occN_set_ne {o : List Bool} {t u : Nat} (h : t ≠ u) (b : Bool) : occN (o.set t b) u = occN o u := by
  unfold occN
  rw [List.getElem?_set_ne h]

theorem countP_set_true {o : List Bool} {t : Nat} (h : o[t]? = some false) :
    (o.set t true).countP id = o.countP id + 1 := by
  obtain ⟨hl, hv⟩ := List.getElem?_eq_some_iff.mp h
  rw [List.countP_set hl]
  simp [hv]

theorem countP_set_false {o : List Bool} {t : Nat} (h : o[t]? = some true) :
    (o.set t false).countP id = o.countP id - 1 := by
  obtain ⟨hl, hv⟩ := List.getElem?_eq_some_iff.mp h
  rw [List.countP_set hl]
  simp [hv]

theorem countP_pos_of {o : List Bool} {t : Nat} (h : o[t]? = some true) : 1 ≤ o.countP id := by
  rw [Nat.succ_le_iff, List.countP_pos_iff]
  exact ⟨true, List.mem_of_getElem? h, rfl⟩

/-! Steps of the core invariant. -/

variable {k : FCfg} {nCh iTask : Nat} {o : List Bool} {failed : List Nat} {log : List LogEv}

theorem cons_step (h : log.filterMap considered = (List.range iTask).map (· % k.n)) {ev : LogEv}
    (hev : considered ev = some (iTask % k.n)) :
    (log ++ [ev]).filterMap considered = (List.range (iTask + 1)).map (· % k.n) := by
  rw [List.filterMap_append, h, List.range_succ, List.map_append]
  simp [hev]

theorem Core.skip (h : Core k nCh iTask iTask o failed log) (hlt : nCh < k.nCpus) (hn : k.n ≠ 0)
    (hs : k.sufficient = false) (hr : iTask % k.n ∈ failed ∨ o[iTask % k.n]? = some true) (hge : k.n ≤ iTask) :
    Core k nCh (iTask + 1) (iTask + 1) o failed (log ++ [.skip (iTask % k.n)]) := by
  have hmod : iTask % k.n < k.n := Nat.mod_lt _ (Nat.pos_of_ne_zero hn)
  refine { len := h.len, cnt := h.cnt, le := h.le, iter_eq := rfl, nodup := h.nodup, flt := h.flt, fidle := h.fidle
           task := fun h' => by (rw [hs] at h'; cases h'), bal := ?_, tot := ?_, fails := ?_
           cons := cons_step h.cons rfl, zero := ?_, one := ?_, suff := ?_, good := ?_ }
  · intro t
    have := h.bal t
    simpa [starts, ends, isStart, isEnded] using this
  · have := h.tot; simpa [allStarts, allEnds, isAnyStart, isAnyEnded] using this
  · intro t
    rw [h.fails t, hasFailed_append]
    simp [HasFailed]
  · intro t h1 h2; omega
  · intro t h1 h2
    have := h.one t h1 (by omega)
    rw [starts_append]; omega
  · intro h'; rw [hs] at h'; cases h'
  · refine .snoc h.good ⟨hmod, hs, ?_, ?_⟩
    · rcases hr with hr | hr
      · exact Or.inl ((h.fails _).mp hr)
      · right; have := h.bal (iTask % k.n); simpa [occN, hr] using this
    · have := h.tot; omega

theorem Core.start (h : Core k nCh iTask iTask o failed log) (hlt : nCh < k.nCpus) (hn : k.n ≠ 0)
    (hnf : iTask % k.n ∉ failed) (hidle : o[iTask % k.n]? = some false)
    (hwant : iTask < k.n ∨ k.sufficient = false) :
    Core k (nCh + 1) (iTask + 1) (iTask + 1) (o.set (iTask % k.n) true) failed
      (log ++ [.start (iTask % k.n) (iTask % k.n) (decide (iTask < k.n))]) := by
  have hmod : iTask % k.n < k.n := Nat.mod_lt _ (Nat.pos_of_ne_zero hn)
  have hlen : iTask % k.n < o.length := by rw [h.len]; exact hmod
  have hbal := h.bal (iTask % k.n)
  have hbal' : starts (iTask % k.n) log = ends (iTask % k.n) log := by simpa [occN, hidle] using hbal
  have hfirst : decide (iTask < k.n) = true ↔ starts (iTask % k.n) log = 0 := by
    rw [decide_eq_true_eq]
    constructor
    · intro hi
      rw [Nat.mod_eq_of_lt hi]
      exact h.zero _ (Nat.le_refl _) hi
    · intro hz
      by_contra hi
      have := h.one (iTask % k.n) hmod (by omega)
      omega
  refine { len := by rw [List.length_set]; exact h.len
           cnt := by rw [countP_set_true hidle, ← h.cnt]
           le := hlt, iter_eq := rfl, nodup := h.nodup, flt := h.flt, fidle := ?_
           task := ?_, bal := ?_, tot := ?_, fails := ?_
           cons := cons_step h.cons rfl, zero := ?_, one := ?_, suff := ?_, good := ?_ }
  · intro i hi
    have hne : iTask % k.n ≠ i := fun e => hnf (e ▸ hi)
    rw [List.getElem?_set_ne hne]
    exact h.fidle i hi
  · intro hs
    rcases hwant with hw | hw
    · exact hw
    · rw [hs] at hw; cases hw
  · intro t
    have hb := h.bal t
    rw [starts_append, ends_append, hb]
    by_cases ht : iTask % k.n = t
    · subst ht
      rw [occN_set_self hlen]
      have : occN o (iTask % k.n) = 0 := by simp [occN, hidle]
      rw [this]
      simp [starts, ends, isStart, isEnded]
    · rw [occN_set_ne ht]
      simp [starts, ends, isStart, isEnded, ht]
  · have := h.tot
    simp [allStarts, allEnds, isAnyStart, isAnyEnded] at this ⊢
    omega
  · intro t
    rw [h.fails t, hasFailed_append]
    simp [HasFailed]
  · intro t h1 h2
    have := h.zero t (by omega) h2
    have hi : iTask % k.n = iTask := Nat.mod_eq_of_lt (by omega)
    rw [starts_append, this, hi]
    simp [starts, isStart]
    omega
  · intro t h1 h2
    rw [starts_append]
    by_cases hti : t < iTask
    · have := h.one t h1 hti; omega
    · have : t = iTask := by omega
      subst this
      rw [Nat.mod_eq_of_lt h1]
      simp [starts, isStart]
  · intro hs
    rw [allStarts_append, h.suff hs]
    simp [allStarts, isAnyStart]
  · refine .snoc h.good ⟨rfl, hmod, hbal', ?_, hfirst, ?_, ?_⟩
    · rw [← h.fails]; exact hnf
    · have := h.tot; omega
    · intro hs
      rw [h.suff hs]
      have : iTask < k.n := by
        rcases hwant with hw | hw
        · exact hw
        · rw [hs] at hw; cases hw
      exact Nat.mod_eq_of_lt this

theorem Core.poll (h : Core k nCh iTask iTask o failed log) (hpos : nCh ≠ 0)
    (hw : ¬ (nCh < k.nCpus ∧ (iTask < k.n ∨ k.sufficient = false))) :
    Core k nCh iTask iTask o failed (log ++ [.poll]) := by
  have htot := h.tot
  have hle := h.le
  refine { len := h.len, cnt := h.cnt, le := h.le, iter_eq := rfl, nodup := h.nodup, flt := h.flt, fidle := h.fidle
           task := h.task, bal := ?_, tot := ?_, fails := ?_
           cons := ?_, zero := ?_, one := ?_, suff := ?_, good := ?_ }
  · intro t; have := h.bal t; simpa [starts, ends, isStart, isEnded] using this
  · simpa [allStarts, allEnds, isAnyStart, isAnyEnded] using htot
  · intro t; rw [h.fails t, hasFailed_append]; simp [HasFailed]
  · rw [List.filterMap_append, h.cons]; simp [considered]
  · intro t h1 h2; have := h.zero t h1 h2; simpa [starts, isStart] using this
  · intro t h1 h2; have := h.one t h1 h2; rw [starts_append]; omega
  · intro hs; have := h.suff hs; simpa [allStarts, isAnyStart] using this
  · refine .snoc h.good ⟨by omega, ?_, ?_⟩
    · intro hs
      rw [h.suff hs]
      by_contra hc
      have h2 : k.n ≤ k.nCpus := by simpa [FCfg.sufficient] using hs
      have h3 := h.suff hs
      exact hw ⟨by omega, Or.inl (by omega)⟩
    · intro hs
      by_contra hc
      exact hw ⟨by omega, Or.inr hs⟩

theorem insertFailed_nodup {i : Nat} {l : List Nat} (h : l.Nodup) : (insertFailed i l).Nodup := by
  unfold insertFailed
  split
  · exact h
  · next hi =>
    rw [List.nodup_append]
    exact ⟨h, by simp, by intro a ha b hb; simp at hb; subst hb; rintro rfl; exact hi ha⟩

theorem mem_insertFailed {i j : Nat} {l : List Nat} : j ∈ insertFailed i l ↔ j ∈ l ∨ j = i := by
  unfold insertFailed
  split
  · next h => constructor
              · exact Or.inl
              · rintro (h' | rfl)
                · exact h'
                · exact h
  · simp

/-- The end of a fuzzer is noticed. -/
theorem Core.ended (h : Core k nCh iTask iTask o failed log) {t : Nat} (hocc : o[t]? = some true) (e : Ending)
    (he : k.exitCode = true → e ≠ .early) :
    Core k (nCh - 1) iTask iTask (o.set t false)
      (if e = .failed ∨ e = .notAborted then insertFailed t failed else failed) (log ++ [.ended t e]) := by
  have hlen : t < o.length := (List.getElem?_eq_some_iff.mp hocc).1
  have htn : t < k.n := by rw [← h.len]; exact hlen
  have hpos : 1 ≤ nCh := by rw [h.cnt]; exact countP_pos_of hocc
  have hnf : t ∉ failed := by
    intro hm
    have := h.fidle t hm
    rw [hocc] at this
    simp at this
  have hbt := h.bal t
  have hon : occN o t = 1 := by simp [occN, hocc]
  refine { len := by rw [List.length_set]; exact h.len
           cnt := by rw [countP_set_false hocc, ← h.cnt]
           le := by have := h.le; omega
           iter_eq := rfl, nodup := ?_, flt := ?_, fidle := ?_
           task := h.task, bal := ?_, tot := ?_, fails := ?_
           cons := ?_, zero := ?_, one := ?_, suff := ?_, good := ?_ }
  · split
    · exact insertFailed_nodup h.nodup
    · exact h.nodup
  · intro i hi
    split at hi
    · rcases mem_insertFailed.mp hi with hi | rfl
      · exact h.flt i hi
      · exact htn
    · exact h.flt i hi
  · intro i hi
    by_cases hti : t = i
    · subst hti
      rw [List.getElem?_set_self hlen]
    · rw [List.getElem?_set_ne hti]
      split at hi
      · rcases mem_insertFailed.mp hi with hi | rfl
        · exact h.fidle i hi
        · exact absurd rfl hti
      · exact h.fidle i hi
  · intro u
    have hb := h.bal u
    rw [starts_append, ends_append, hb]
    by_cases htu : t = u
    · subst htu
      rw [occN_set_self hlen, hon]
      simp [starts, ends, isStart, isEnded]
    · rw [occN_set_ne htu]
      simp [starts, ends, isStart, isEnded, htu]
  · have := h.tot
    simp [allStarts, allEnds, isAnyStart, isAnyEnded] at this ⊢
    omega
  · intro u
    rw [hasFailed_append, ← h.fails u]
    have hx : HasFailed u [.ended t e] ↔ u = t ∧ (e = .failed ∨ e = .notAborted) := by
      simp only [HasFailed, List.mem_singleton, LogEv.ended.injEq]
      constructor
      · rintro (⟨h1, h2⟩ | ⟨h1, h2⟩)
        · exact ⟨h1, Or.inl h2.symm⟩
        · exact ⟨h1, Or.inr h2.symm⟩
      · rintro ⟨h1, h2 | h2⟩
        · exact Or.inl ⟨h1, h2.symm⟩
        · exact Or.inr ⟨h1, h2.symm⟩
    rw [hx]
    split
    · next hc => rw [mem_insertFailed]; simp [hc]
    · next hc => simp [hc]
  · rw [List.filterMap_append, h.cons]; simp [considered]
  · intro u h1 h2; have := h.zero u h1 h2; simpa [starts, isStart] using this
  · intro u h1 h2; have := h.one u h1 h2; rw [starts_append]; omega
  · intro hs; have := h.suff hs; simpa [allStarts, isAnyStart] using this
  · refine .snoc h.good ⟨htn, by omega, ?_, he, by have := h.tot; omega⟩
    rw [← h.fails]; exact hnf

/-! ### The functions of the model preserve the invariant -/

theorem occ_putBuffers (cs : List (Option FChild)) (bs : List (List Bytes)) : occ (putBuffers cs bs) = occ cs := by
  induction cs generalizing bs with
  | nil => rfl
  | cons c cs ih =>
    cases c with
    | none => simp only [putBuffers, occ, List.map_cons] at *; rw [ih]
    | some c =>
      cases bs <;> (simp only [putBuffers, occ, List.map_cons, Option.isSome_some] at *; rw [ih])

theorem refreshState_eq {k : FCfg} {term} {s s' : FState} (h : refreshState k term s = .ok s') :
    ∃ bufs, s' = { s with children := putBuffers s.children bufs } := by
  unfold refreshState at h
  cases hr : refresh k.vis k.noUi term s.nChildren (shown k s) with
  | ok p => rw [hr] at h; exact ⟨p.2, (Out.ok.inj h).symm⟩
  | _ => rw [hr] at h; cases h

theorem Inv.refresh {k : FCfg} {s s' : FState} {term} (hi : s.Inv k) (h : refreshState k term s = .ok s') :
    s'.Inv k := by
  obtain ⟨bufs, rfl⟩ := refreshState_eq h
  unfold FState.Inv at hi ⊢
  simp only [occ_putBuffers]
  exact hi

theorem occ_getElem {cs : List (Option FChild)} {i : Nat} {b : Bool} :
    (occ cs)[i]? = some b ↔ ∃ c, cs[i]? = some c ∧ c.isSome = b := by
  simp [occ]

theorem occ_set (cs : List (Option FChild)) (i : Nat) (c : Option FChild) :
    occ (cs.set i c) = (occ cs).set i c.isSome := by
  simp [occ, List.map_set]

theorem List.set_same {α} {l : List α} {i : Nat} {a : α} (h : l[i]? = some a) : l.set i a = l := by
  obtain ⟨hl, rfl⟩ := List.getElem?_eq_some_iff.mp h
  exact List.set_getElem_self hl

theorem Inv.schedule {k : FCfg} {s s' : FState} {b : Bool} (hi : s.Inv k) (hw : wantsTask k s = true)
    (h : schedule k b s = .ok s') : s'.Inv k := by
  have hw' : s.nChildren < k.nCpus ∧ (s.iTask < k.n ∨ k.sufficient = false) := by
    simpa [wantsTask] using hw
  unfold FState.Inv at hi
  have hit : s.iter = s.iTask := hi.iter_eq
  unfold TF.schedule at h
  by_cases hn : k.n = 0
  · simp [hn] at h
  · simp only [hn, if_false] at h
    have hmod : s.iTask % k.n < k.n := Nat.mod_lt _ (Nat.pos_of_ne_zero hn)
    rw [hit] at hi h
    by_cases hf : s.iTask % k.n ∈ s.failed
    · simp only [hf, if_true, Out.ok.injEq] at h
      have hst : 1 ≤ starts (s.iTask % k.n) s.log := by
        have h1 := (hi.fails _).mp hf
        by_contra hc
        have hz : starts (s.iTask % k.n) s.log = 0 := by omega
        have hb := hi.bal (s.iTask % k.n)
        have he : ends (s.iTask % k.n) s.log = 0 := by omega
        rw [ends, List.countP_eq_zero] at he
        rcases h1 with h1 | h1
        · exact he _ h1 (by simp [isEnded])
        · exact he _ h1 (by simp [isEnded])
      have hge : k.n ≤ s.iTask := by
        by_contra hc
        have hlt : s.iTask < k.n := by omega
        rw [Nat.mod_eq_of_lt hlt] at hst
        have := hi.zero _ (Nat.le_refl _) hlt
        omega
      have hs : k.sufficient = false := by
        rcases hw'.2 with h2 | h2
        · omega
        · exact h2
      rw [← h]
      exact hi.skip hw'.1 hn hs (Or.inl hf) hge
    · simp only [hf, if_false] at h
      cases hc : s.children[s.iTask % k.n]? with
      | none => rw [hc] at h; cases h
      | some c =>
        rw [hc] at h
        cases c with
        | some c =>
          simp only at h
          have hocc : (occ s.children)[s.iTask % k.n]? = some true := occ_getElem.mpr ⟨_, hc, rfl⟩
          cases hsf : k.sufficient with
          | true => rw [hsf] at h; cases h
          | false =>
            simp only [hsf, assert, Bool.not_false, if_true, Out.ok_bind, Out.ok.injEq] at h
            have hst : 1 ≤ starts (s.iTask % k.n) s.log := by
              have hb := hi.bal (s.iTask % k.n)
              simp only [occN, hocc, if_true] at hb
              omega
            have hge : k.n ≤ s.iTask := by
              by_contra hc
              have hlt : s.iTask < k.n := by omega
              rw [Nat.mod_eq_of_lt hlt] at hst
              have := hi.zero _ (Nat.le_refl _) hlt
              omega
            rw [← h]
            exact hi.skip hw'.1 hn hsf (Or.inr hocc) hge
        | none =>
          simp only at h
          have hocc : (occ s.children)[s.iTask % k.n]? = some false := occ_getElem.mpr ⟨_, hc, rfl⟩
          cases ha : (decide (s.iTask < k.n) || !k.sufficient) with
          | false => rw [ha] at h; cases h
          | true =>
            rw [ha] at h
            simp only [assert, if_true, Out.ok_bind] at h
            cases b with
            | false => cases h
            | true =>
              simp only [if_true, Out.ok.injEq] at h
              rw [← h]
              unfold FState.Inv
              simp only [occ_set, Option.isSome_some]
              exact hi.start hw'.1 hn hf hocc hw'.2

theorem readLoop_of_reads {r : List ReadRes} {b : Bytes} (h : Receives r b) : readLoop r = .ok b := by
  induction h with
  | more hb _ ih => rw [readLoop, if_neg hb, ih, Out.ok_bind]
  | _ => rfl

theorem readLoop_cases (r : List ReadRes) : (∃ b, Receives r b) ∨ readLoop r = .err c%"read error" := by
  induction r with
  | nil => exact .inl ⟨_, .nothing⟩
  | cons a r ih =>
    cases a with
    | data b =>
      by_cases hb : b = []
      · subst hb; exact .inl ⟨_, .empty r⟩
      · rcases ih with ⟨x, hx⟩ | ih
        · exact .inl ⟨_, .more hb hx⟩
        · right; rw [readLoop, if_neg hb, ih]; rfl
    | eof => exact .inl ⟨_, .ends r⟩
    | wouldBlock => exact .inl ⟨_, .waits r⟩
    | error => exact .inr rfl

/-- The read loop receives what there is to read, up to an error. -/
theorem readLoop_iff {r : List ReadRes} {b : Bytes} : readLoop r = .ok b ↔ Receives r b := by
  refine ⟨fun h => ?_, readLoop_of_reads⟩
  rcases readLoop_cases r with ⟨x, hx⟩ | he
  · rw [readLoop_of_reads hx] at h; cases h; exact hx
  · rw [he] at h; cases h


theorem processRead_occ {k : FCfg} {ev : Event} {s s' : FState} {c : FChild}
    (h : processRead k ev s = .ok (s', c)) :
    ∃ c0 b text rest prev' printed',
      s.children[ev.token]? = some (some c0) ∧ ev.token < k.n ∧ readLoop ev.reads = .ok b ∧
      takeText (c0.unprinted ++ b) = .ok (text, rest) ∧
      processLines k ev.token (strLines text)
        ({ c0 with unprinted := rest, recv := c0.recv ++ b, lines := c0.lines ++ strLines text }, s.prev, s.printed)
          = (c, prev', printed') ∧
      s' = { s with children := s.children.set ev.token (some c), prev := prev', printed := printed' } := by
  unfold processRead at h
  split at h
  · next hlt =>
    split at h
    · next c0 hc =>
      cases h1 : readLoop ev.reads with
      | ok b =>
        rw [h1, Out.ok_bind] at h
        cases h2 : takeText (c0.unprinted ++ b) with
        | ok p =>
          obtain ⟨text, rest⟩ := p
          rw [h2, Out.ok_bind] at h
          simp only at h
          rcases h3 : processLines k ev.token (strLines text)
            ({ c0 with unprinted := rest, recv := c0.recv ++ b, lines := c0.lines ++ strLines text }, s.prev,
              s.printed) with ⟨c', prev', printed'⟩
          rw [h3] at h
          simp only [Out.ok.injEq, Prod.mk.injEq] at h
          exact ⟨c0, b, text, rest, prev', printed', hc, hlt, rfl, h2, by rw [h3, h.2], by rw [← h.1, h.2]⟩
        | _ => rw [h2] at h; cases h
      | _ => rw [h1] at h; cases h
    · cases h
  · cases h

theorem Inv.processRead {k : FCfg} {ev : Event} {s s' : FState} {c : FChild} (hi : s.Inv k)
    (h : processRead k ev s = .ok (s', c)) : s'.Inv k ∧ (occ s'.children)[ev.token]? = some true := by
  obtain ⟨c0, b, text, rest, prev', printed', hc, hlt, -, -, -, rfl⟩ := processRead_occ h
  have hocc : (occ s.children)[ev.token]? = some true := occ_getElem.mpr ⟨_, hc, rfl⟩
  have he : occ (s.children.set ev.token (some c)) = occ s.children := by
    rw [occ_set]
    exact List.set_same hocc
  unfold FState.Inv at hi ⊢
  simp only [he]
  exact ⟨hi, hocc⟩

/-- What reaping does, if it returns. -/
theorem reap_ok {k : FCfg} {ev : Event} {c : FChild} {s s' : FState} (h : reap k ev c s = .ok s') :
    ∃ e, (e = .failed ∧ ev.wait = .status false ∨ e = .notAborted ∧ ev.wait = .status true ∧ c.aborted = false ∨
        e = .timeLimit ∧ ev.wait = .status true ∧ c.aborted = true ∧ c.timeLimit = true ∨
        e = .early ∧ ev.wait = .status true ∧ c.aborted = true ∧ c.timeLimit = false ∧ k.exitCode = false) ∧
      s' = { s with
        children := s.children.set ev.token none
        nChildren := s.nChildren - 1
        failed := if e = .failed ∨ e = .notAborted then insertFailed ev.token s.failed else s.failed
        log := s.log ++ [.ended ev.token e] } := by
  unfold reap at h
  simp only at h
  cases hd : ev.deregOk with
  | false => rw [hd] at h; cases h
  | true =>
    simp only [hd, Bool.not_true, Bool.false_eq_true, if_false] at h
    split at h
    · cases h
    · cases hw : ev.wait with
      | error => rw [hw] at h; cases h
      | status ok =>
        rw [hw] at h
        simp only at h
        cases ok with
        | false =>
          simp only [Bool.not_false, if_true, Out.ok.injEq] at h
          exact ⟨.failed, Or.inl ⟨rfl, rfl⟩, by rw [← h]; simp⟩
        | true =>
          simp only [Bool.not_true, Bool.false_eq_true, if_false] at h
          cases ha : c.aborted with
          | false =>
            simp only [ha, Bool.not_false, if_true, Out.ok.injEq] at h
            exact ⟨.notAborted, Or.inr (Or.inl ⟨rfl, rfl, rfl⟩), by rw [← h]; simp⟩
          | true =>
            simp only [ha, Bool.not_true, Bool.false_eq_true, if_false] at h
            split at h
            · cases h
            · next hx =>
              simp only [Out.ok.injEq] at h
              cases ht : c.timeLimit with
              | true =>
                refine ⟨.timeLimit, Or.inr (Or.inr (Or.inl ⟨rfl, rfl, rfl, rfl⟩)), ?_⟩
                rw [← h]; simp [ht]
              | false =>
                refine ⟨.early, Or.inr (Or.inr (Or.inr ⟨rfl, rfl, rfl, rfl, ?_⟩)), ?_⟩
                · simpa [ht] using hx
                · rw [← h]; simp [ht]

theorem Inv.reap {k : FCfg} {ev : Event} {c : FChild} {s s' : FState} (hi : s.Inv k)
    (hocc : (occ s.children)[ev.token]? = some true) (h : reap k ev c s = .ok s') : s'.Inv k := by
  obtain ⟨e, he, rfl⟩ := reap_ok h
  unfold FState.Inv at hi ⊢
  have hit : s.iter = s.iTask := hi.iter_eq
  simp only [occ_set, Option.isSome_none]
  rw [hit] at hi ⊢
  refine hi.ended hocc e ?_
  intro hx hee
  rcases he with ⟨h1, -⟩ | ⟨h1, -⟩ | ⟨h1, -⟩ | ⟨-, -, -, -, h1⟩
  · rw [h1] at hee; cases hee
  · rw [h1] at hee; cases hee
  · rw [h1] at hee; cases hee
  · rw [hx] at h1; cases h1

theorem Inv.processEvent {k : FCfg} {ev : Event} {s s' : FState} (hi : s.Inv k)
    (h : processEvent k ev s = .ok s') : s'.Inv k := by
  unfold TF.processEvent at h
  cases h1 : TF.processRead k ev s with
  | ok p =>
    obtain ⟨s1, c⟩ := p
    rw [h1, Out.ok_bind] at h
    simp only at h
    obtain ⟨hi1, hocc⟩ := Inv.processRead hi h1
    split at h
    · exact Inv.reap hi1 hocc h
    · cases h; exact hi1
  | _ => rw [h1] at h; cases h

theorem Inv.processEvents {k : FCfg} {evs : List Event} {s s' : FState} (hi : s.Inv k)
    (h : processEvents k evs s = .ok s') : s'.Inv k := by
  induction evs generalizing s with
  | nil => cases h; exact hi
  | cons ev evs ih =>
    unfold TF.processEvents at h
    cases h1 : TF.processEvent k ev s with
    | ok s1 => rw [h1, Out.ok_bind] at h; exact ih (Inv.processEvent hi h1) h
    | _ => rw [h1] at h; cases h

/-- The cases of one iteration. -/
theorem iterate_cont {k : FCfg} {inp : Inp} {s s' : FState} (h : iterate k inp s = .ok (.cont s')) :
    ∃ s1, refreshState k inp.term s = .ok s1 ∧ s1.failed.length ≠ k.n ∧
      ((wantsTask k s1 = true ∧ schedule k inp.spawnOk s1 = .ok s') ∨
       (wantsTask k s1 = false ∧ s1.nChildren ≠ 0 ∧ ∃ evs, inp.poll = some evs ∧
          processEvents k evs { s1 with log := s1.log ++ [.poll] } = .ok s')) := by
  unfold iterate at h
  cases h1 : refreshState k inp.term s with
  | ok s1 =>
    rw [h1, Out.ok_bind] at h
    refine ⟨s1, rfl, ?_⟩
    split at h
    · cases h
    · next hf =>
      refine ⟨hf, ?_⟩
      cases hw : wantsTask k s1 with
      | true =>
        simp only [hw, if_true] at h
        cases h2 : schedule k inp.spawnOk s1 with
        | ok s2 =>
          rw [h2, Out.ok_bind] at h
          cases h
          exact Or.inl ⟨rfl, rfl⟩
        | _ => rw [h2] at h; cases h
      | false =>
        simp only [hw, Bool.false_eq_true, if_false] at h
        split at h
        · cases hs : k.sufficient with
          | false => rw [hs] at h; cases h
          | true =>
            simp only [hs, assert, if_true, Out.ok_bind] at h
            split at h <;> cases h
        · next hn =>
          right
          refine ⟨rfl, hn, ?_⟩
          cases hp : inp.poll with
          | none => rw [hp] at h; cases h
          | some evs =>
            rw [hp] at h
            simp only at h
            refine ⟨evs, rfl, ?_⟩
            cases h3 : processEvents k evs { s1 with log := s1.log ++ [.poll] } with
            | ok s2 => rw [h3, Out.ok_bind] at h; cases h; rfl
            | _ => rw [h3] at h; cases h
  | _ => rw [h1] at h; cases h

theorem Inv.iterate {k : FCfg} {inp : Inp} {s s' : FState} (hi : s.Inv k)
    (h : iterate k inp s = .ok (.cont s')) : s'.Inv k := by
  obtain ⟨s1, h1, -, ⟨hw, h2⟩ | ⟨hw, hn, evs, -, h2⟩⟩ := iterate_cont h
  · exact Inv.schedule (Inv.refresh hi h1) hw h2
  · have hi1 := Inv.refresh hi h1
    refine Inv.processEvents ?_ h2
    unfold FState.Inv at hi1 ⊢
    have hit : s1.iter = s1.iTask := hi1.iter_eq
    rw [hit] at hi1
    simp only [hit]
    refine hi1.poll hn ?_
    intro hc
    have : wantsTask k s1 = true := by simpa [wantsTask] using hc
    rw [hw] at this; cases this

theorem Spec.Reach.inv {k : FCfg} {s : FState} (h : Reach k s) : s.Inv k := by
  induction h with
  | init => exact Inv.init k
  | step _ h ih => exact Inv.iterate ih h

end TF
