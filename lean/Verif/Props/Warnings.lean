import Verif.Spec.Warnings
import Verif.Props.FuzzEnd
import Verif.Props.FuzzUi

/-!
# C109: what the fuzzing loop warns about
-/

namespace TF

open Spec

section

variable {fz : FS → FS → Prop} {o : Opts} {y : Sys} {llvm : List (Str × Str)} {k : FCfg} {ets : List (Exe × Str)} {w₀ : World}
variable {shown : Cmd → Str} {exec : Nat → Str}

/-- The lines that a child holds are lines of text; without user interface there are none. -/
theorem warningOutput_text {s : FState} (ho : s.OInv k) {i : Nat} {c : FChild} (hc : s.children[i]? = some (some c)) :
    ∃ lines : List Str, (k.noUi = true → lines = []) ∧ warningOutput c = utf8Encode (joinWith c%"\n" lines) := by
  have hi := ho.2 i c hc
  unfold warningOutput
  cases hn : k.noUi with
  | true =>
    refine ⟨[], fun _ => rfl, ?_⟩
    rw [(hi.noui hn).2]
    rfl
  | false =>
    obtain ⟨pre, he⟩ := hi.ui hn
    refine ⟨c.lines.drop pre.length, by simp, ?_⟩
    have h2 : (c.lines.map utf8Encode).drop pre.length = c.buffer := by rw [← he]; simp
    rw [← joinLines_encode, ← h2, List.map_drop]

/-- One event: a warning exactly if the event is a failure. -/
theorem eventWarnings_ok {s s' : FState} (ho : s.OInv k) {ev : Event} (h : processEvent k ev s = .ok s') :
    ∃ new, s'.log = s.log ++ new ∧ List.Forall₂ (fun (a : Nat × Ending) text => a.1 < k.n ∧
      WarningText k.noUi a.2 (k.targets.getD a.1 []) (exec a.1) text) (new.filterMap failing) (eventWarnings k exec ev s) := by
  unfold processEvent at h
  cases h1 : processRead k ev s with
  | ok p =>
    obtain ⟨s1, c⟩ := p
    rw [h1, Out.ok_bind] at h
    simp only at h
    have hlog := processRead_log h1
    obtain ⟨ho1, hc⟩ := OInv.processRead ho h1
    obtain ⟨-, -, -, -, -, -, -, hlt, -⟩ := processRead_occ h1
    unfold eventWarnings
    rw [h1]
    cases hrc : ev.readClosed with
    | false =>
      rw [hrc] at h
      cases h
      exact ⟨[], by simp [hlog], by simp⟩
    | true =>
      rw [hrc, if_pos rfl] at h
      obtain ⟨hd, hn⟩ : ev.deregOk = true ∧ s1.nChildren ≠ 0 := by
        unfold reap at h
        simp only at h
        cases hd : ev.deregOk with
        | false => rw [hd] at h; cases h
        | true =>
          refine ⟨rfl, fun h0 => ?_⟩
          rw [hd, h0] at h
          cases h
      obtain ⟨e, he, rfl⟩ := reap_ok h
      refine ⟨[.ended ev.token e], by simp [hlog], ?_⟩
      simp only [hd, Bool.and_self, Bool.true_and, bne_iff_ne, ne_eq, hn, not_false_eq_true, if_true]
      unfold warning
      rcases he with ⟨rfl, hw⟩ | ⟨rfl, hw, ha⟩ | ⟨rfl, hw, ha, -⟩ | ⟨rfl, hw, ha, -⟩
      · obtain ⟨lines, hl, ht⟩ := warningOutput_text ho1 hc
        rw [hw]
        refine .cons ⟨hlt, .inl ⟨rfl, lines, hl, ?_⟩⟩ .nil
        rw [ht]
        simp only [utf8Encode_append, List.append_assoc]
      · rw [hw, ha]
        exact .cons ⟨hlt, .inr ⟨rfl, rfl⟩⟩ .nil
      · rw [hw, ha]
        exact .nil
      · rw [hw, ha]
        exact .nil
  | _ => rw [h1] at h; cases h

theorem batchWarnings_ok {evs : List Event} {s s' : FState} (ho : s.OInv k) (h : processEvents k evs s = .ok s') :
    ∃ new, s'.log = s.log ++ new ∧ List.Forall₂ (fun (a : Nat × Ending) text => a.1 < k.n ∧
      WarningText k.noUi a.2 (k.targets.getD a.1 []) (exec a.1) text) (new.filterMap failing) (batchWarnings k exec evs s) := by
  induction evs generalizing s with
  | nil => cases h; exact ⟨[], by simp, .nil⟩
  | cons ev evs ih =>
    unfold processEvents at h
    cases h1 : processEvent k ev s with
    | ok s1 =>
      rw [h1, Out.ok_bind] at h
      obtain ⟨n1, e1, f1⟩ := eventWarnings_ok (exec := exec) ho h1
      obtain ⟨n2, e2, f2⟩ := ih (OInv.processEvent ho h1) h
      refine ⟨n1 ++ n2, by rw [e2, e1, List.append_assoc], ?_⟩
      unfold batchWarnings
      rw [h1, List.filterMap_append]
      exact List.rel_append f1 f2
    | _ => rw [h1] at h; cases h

/-- One iteration: a warning for each failure. -/
theorem iterateWarnings_ok {inp : Inp} {s s' : FState} (hr : Reach k s) (h : iterate k inp s = .ok (.cont s')) :
    ∃ new, s'.log = s.log ++ new ∧ List.Forall₂ (fun (a : Nat × Ending) text => a.1 < k.n ∧
      WarningText k.noUi a.2 (k.targets.getD a.1 []) (exec a.1) text) (new.filterMap failing) (iterateWarnings k exec inp s) ∧
      (starting k inp s = none → new.filterMap startOf = []) ∧
      ∀ t first, starting k inp s = some (t, first) → t = s.iTask % k.n ∧ new = [.start t t first] := by
  obtain ⟨s1, h1, hf, ⟨hw, h2⟩ | ⟨hw, hn, evs, hp, h2⟩⟩ := iterate_cont h
  · have hlog : s1.log = s.log := by obtain ⟨b, rfl⟩ := refreshState_eq h1; rfl
    have htask : s1.iTask = s.iTask := by obtain ⟨b, rfl⟩ := refreshState_eq h1; rfl
    have hit := (Inv.refresh hr.inv h1).iter_eq
    have hnone : iterateWarnings k exec inp s = [] := by
      unfold iterateWarnings
      rw [h1]
      simp [hw]
    rw [hnone]
    unfold starting
    rw [h1]
    simp only
    unfold schedule at h2
    by_cases h0 : k.n = 0
    · rw [if_pos h0] at h2; cases h2
    · rw [if_neg h0] at h2
      simp only at h2
      by_cases hm : s1.iTask % k.n ∈ s1.failed
      · rw [if_pos hm] at h2
        cases h2
        exact ⟨[.skip (s1.iTask % k.n)], by simp [hlog], .nil, fun _ => rfl, by simp [hm]⟩
      · rw [if_neg hm] at h2
        rw [if_neg (by simp [hf, hw, h0, hm])]
        cases hc : s1.children[s1.iTask % k.n]? with
        | none => rw [hc] at h2; cases h2
        | some c =>
          rw [hc] at h2
          cases c with
          | some c =>
            simp only [assert] at h2
            split at h2
            · simp only [Out.ok_bind, Out.ok.injEq] at h2
              rw [← h2]
              exact ⟨[.skip (s1.iTask % k.n)], by simp [hlog], .nil, fun _ => rfl, by simp⟩
            · cases h2
          | none =>
            simp only [assert] at h2 ⊢
            split at h2
            · next ha =>
              simp only [Out.ok_bind] at h2
              split at h2
              · simp only [Out.ok.injEq] at h2
                rw [← h2]
                rw [if_pos ha]
                refine ⟨[.start (s1.iter % k.n) (s1.iTask % k.n) (decide (s1.iTask < k.n))], by simp [hlog], .nil, by simp, ?_⟩
                intro t first he
                simp only [Option.some.injEq, Prod.mk.injEq] at he
                obtain ⟨rfl, rfl⟩ := he
                rw [hit, htask]
                exact ⟨rfl, rfl⟩
              · cases h2
            · cases h2
  · have hlog : s1.log = s.log := by obtain ⟨b, rfl⟩ := refreshState_eq h1; rfl
    have ho1 := OInv.refresh hr.inv hr.oinv h1
    obtain ⟨new, e1, f1⟩ := batchWarnings_ok (exec := exec) (s := { s1 with log := s1.log ++ [.poll] }) ⟨ho1.1, ho1.2⟩ h2
    simp only [hlog] at e1
    have hs : starting k inp s = none := by
      unfold starting
      rw [h1]
      simp [hw]
    refine ⟨.poll :: new, by rw [e1]; simp, ?_, fun _ => ?_, by simp [hs]⟩
    · unfold iterateWarnings
      rw [h1]
      simp only [hf, hw, hn, hp, decide_false, Bool.or_self, Bool.false_eq_true, if_false]
      exact f1
    · have := processEvents_startOf h2
      simp only [e1, List.filterMap_append] at this
      simpa [hlog, startOf] using this

/-- The commands and files are those of `LoopReach`. -/
theorem Spec.Warned.loop {s w l ex ws} (h : Warned fz o y llvm k ets w₀ shown s w l ex ws) :
    LoopReach fz o y llvm k ets w₀ s w l := by
  induction h with
  | init => exact .init
  | fuzzers _ hf ih => exact .fuzzers ih hf
  | quiet _ he ih => exact .quiet ih he
  | started _ he ih => exact .started ih he

/-- A further command for another target changes nothing. -/
theorem Spec.LastRun.snoc {l : List (Cmd × FS)} {x x' : Exe × Str} {c : Cmd} {d : Cmd × FS} (h : LastRun l x c)
    (hd : RunsTarget d.1 x') (hx : ¬ (x.1.path = x'.1.path ∧ x.2 = x'.2)) : LastRun (l ++ [d]) x c := by
  obtain ⟨pre, F, post, rfl, h1, h2⟩ := h
  refine ⟨pre, F, post ++ [d], by simp, h1, fun d' hd' hr => ?_⟩
  rcases List.mem_append.mp hd' with hm | hm
  · exact h2 d' hm hr
  · rw [List.mem_singleton] at hm
    subst hm
    exact hx (hr.unique hd)

theorem failing_hasFailed {log : List LogEv} {a : Nat × Ending} (h : a ∈ log.filterMap failing) : HasFailed a.1 log := by
  obtain ⟨e, he, ha⟩ := List.mem_filterMap.mp h
  unfold failing at ha
  split at ha
  · cases ha; exact .inl he
  · cases ha; exact .inr he
  · cases ha

theorem hasFailed_failing {log : List LogEv} {t : Nat} : HasFailed t log ↔ t ∈ (log.filterMap failing).map Prod.fst := by
  constructor
  · rintro (h | h)
    · exact List.mem_map.mpr ⟨(t, .failed), List.mem_filterMap.mpr ⟨_, h, rfl⟩, rfl⟩
    · exact List.mem_map.mpr ⟨(t, .notAborted), List.mem_filterMap.mpr ⟨_, h, rfl⟩, rfl⟩
  · intro h
    obtain ⟨a, ha, rfl⟩ := List.mem_map.mp h
    exact failing_hasFailed ha

/-- Each target fails at most once. -/
theorem GoodLog.failing_nodup {log : List LogEv} (h : GoodLog k log) : ((log.filterMap failing).map Prod.fst).Nodup := by
  induction h with
  | nil => exact List.nodup_nil
  | @snoc l ev _ hg ih =>
    rw [List.filterMap_append, List.map_append]
    rcases hf : failing ev with _ | a
    · simpa [hf] using ih
    · simp only [List.filterMap_cons, hf, List.filterMap_nil, List.map_cons, List.map_nil]
      refine List.nodup_append.mpr ⟨ih, by simp, ?_⟩
      intro t ht u hu
      rw [List.mem_singleton] at hu
      subst hu
      rintro rfl
      have hno : ¬ HasFailed a.1 l := by
        unfold failing at hf
        split at hf
        · cases hf; exact hg.2.2.1
        · cases hf; exact hg.2.2.1
        · cases hf
      exact hno (hasFailed_failing.mpr ht)

theorem ended_started {log : List LogEv} (h : GoodLog k log) {a : Nat × Ending} (ha : a ∈ log.filterMap failing) :
    starts a.1 log ≠ 0 := by
  obtain ⟨e, he, hf⟩ := List.mem_filterMap.mp ha
  obtain ⟨pre, post, rfl⟩ := List.append_of_mem he
  have hg := h.at pre e post rfl
  have : starts a.1 pre ≠ 0 := by
    unfold failing at hf
    split at hf
    · cases hf; have := hg.2.1; simp only; omega
    · cases hf; have := hg.2.1; simp only; omega
    · cases hf
  unfold starts at this ⊢
  rw [List.countP_append]
  omega

theorem starts_congr {a b : List LogEv} (h : a.filterMap startOf = b.filterMap startOf) (t : Nat) :
    starts t a ≠ 0 → starts t b ≠ 0 := by
  intro ha hb
  rw [starts_startOf] at hb
  exact ha ((starts_startOf t a).mpr (h ▸ hb))

theorem forall₂_imp_left {α β} {R S : α → β → Prop} {as : List α} {bs : List β} (h : List.Forall₂ R as bs)
    (hi : ∀ a ∈ as, ∀ b, R a b → S a b) : List.Forall₂ S as bs := by
  induction h with
  | nil => exact .nil
  | cons h _ ih => exact .cons (hi _ List.mem_cons_self _ h) (ih fun a ha => hi a (List.mem_cons_of_mem _ ha))

/-- The invariant: each child's command is the last one of its target, and there is a warning for each failure. -/
theorem Spec.Warned.inv {s w l ex ws} (hd : (ets.map fun x => (x.1.path, x.2)).Nodup)
    (h : Warned fz o y llvm k ets w₀ shown s w l ex ws) :
    (∀ i, starts i s.log ≠ 0 → ∃ x c, ets[i]? = some x ∧ ex i = some c ∧ LastRun l x c) ∧
      List.Forall₂ (fun (a : Nat × Ending) text => a.1 < k.n ∧ ∃ x c, ets[a.1]? = some x ∧ LastRun l x c ∧
        WarningText k.noUi a.2 (k.targets.getD a.1 []) (shown c) text) (s.log.filterMap failing) ws := by
  induction h with
  | init => exact ⟨fun i hi => absurd rfl hi, .nil⟩
  | fuzzers _ _ ih => exact ih
  | @quiet s w l ex ws inp s' w' hp he ih =>
    obtain ⟨h1, ⟨hs, -, -⟩ | ⟨_, _, _, _, -, -, hc, -⟩⟩ := iterateIO_ok he
    · obtain ⟨new, e1, f1, g1, -⟩ := iterateWarnings_ok (exec := fun i => ((ex i).map shown).getD []) hp.loop.reach h1
      have hst : s'.log.filterMap startOf = s.log.filterMap startOf := by
        rw [e1, List.filterMap_append, g1 hs, List.append_nil]
      refine ⟨fun i hi => ih.1 i (starts_congr hst i hi), ?_⟩
      have hgood := (Reach.step hp.loop.reach h1).inv.good
      rw [e1, List.filterMap_append]
      refine List.rel_append ih.2 ?_
      have hin : ∀ a ∈ new.filterMap failing, a ∈ s'.log.filterMap failing := by
        intro a ha
        rw [e1, List.filterMap_append]
        exact List.mem_append_right _ ha
      refine forall₂_imp_left f1 fun a ha text hh => ⟨hh.1, ?_⟩
      obtain ⟨x, c, hx, hex, hlast⟩ := ih.1 a.1 (starts_congr hst _ (ended_started hgood (hin a ha)))
      refine ⟨x, c, hx, hlast, ?_⟩
      have := hh.2
      rw [hex] at this
      exact this
    · cases hc
  | @started s w l ex ws inp s' w' c hp he ih =>
    obtain ⟨h1, ⟨-, hc, -⟩ | ⟨t, first, x, cmd, hs, hx, hc, hf⟩⟩ := iterateIO_ok he
    · cases hc
    cases hc
    obtain ⟨new, e1, f1, -, g1⟩ := iterateWarnings_ok (exec := fun i => ((ex i).map shown).getD []) hp.loop.reach h1
    obtain ⟨ht, rfl⟩ := g1 t first hs
    have hgood := (Reach.step hp.loop.reach h1).inv.good
    rw [e1] at hgood
    have hgt := hgood.at s.log _ [] rfl
    have hruns : RunsTarget c x := fuzzCommand_runs (fuzzCommandIO_ok (congrArg Prod.fst hf))
    have other : ∀ i x', i ≠ t → ets[i]? = some x' → ¬ (x'.1.path = x.1.path ∧ x'.2 = x.2) := by
      rintro i x' hne hx' ⟨p1, p2⟩
      refine hne ?_
      have hi : (ets.map fun x => (x.1.path, x.2))[i]? = (ets.map fun x => (x.1.path, x.2))[t]? := by
        rw [List.getElem?_map, List.getElem?_map, hx, hx']; simp [p1, p2]
      have hlt : i < (ets.map fun x => (x.1.path, x.2)).length := by
        rw [List.length_map]; exact (List.getElem?_eq_some_iff.mp hx').1
      exact (List.getElem?_inj hlt hd).mp hi
    refine ⟨fun i hi => ?_, ?_⟩
    · by_cases hit : i = t
      · subst hit
        refine ⟨x, c, hx, ?_, l, w'.fs, [], rfl, hruns, by simp⟩
        unfold keepExec
        rw [if_pos ht]
      · have hi' : starts i s.log ≠ 0 := by
          rw [e1] at hi
          simp only [starts, List.countP_append, List.countP_cons, List.countP_nil, isStart] at hi ⊢
          have : (t == i) = false := by simpa using fun h => hit h.symm
          simpa [this] using hi
        obtain ⟨x', c', hx', hex, hlast⟩ := ih.1 i hi'
        refine ⟨x', c', hx', ?_, hlast.snoc hruns (other i x' hit hx')⟩
        unfold keepExec
        rw [if_neg (ht ▸ hit)]
        exact hex
    · have hnil : iterateWarnings k (fun i => ((ex i).map shown).getD []) inp s = [] :=
        List.forall₂_nil_left_iff.mp f1
      rw [hnil, List.append_nil, e1, List.filterMap_append]
      have : [LogEv.start t t first].filterMap failing = [] := rfl
      rw [this, List.append_nil]
      have hne : ∀ a ∈ s.log.filterMap failing, a.1 ≠ t := by
        intro a ha hat
        exact hgt.2.2.2.1 (hat ▸ failing_hasFailed ha)
      refine forall₂_imp_left ih.2 fun a ha text hh => ?_
      obtain ⟨hlt, x', c', hx', hlast, htext⟩ := hh
      exact ⟨hlt, x', c', hx', hlast.snoc hruns (other a.1 x' (hne a ha) hx'), htext⟩

/-! ## C109 -/

/-- **C109 (warnings).** At any time, what the loop has written to standard error is one warning for each target that has failed,
and nothing else, in the order in which the failures were noticed. The warning names the target and shows the command of the
fuzzer that failed: the last one that was started for this target. -/
theorem C109_warnings (hd : (ets.map fun x => (x.1.path, x.2)).Nodup) (hk : k.targets = ets.map Prod.snd) {s w l ex ws}
    (h : Warned fz o y llvm k ets w₀ shown s w l ex ws) :
    ∃ failures : List (Nat × Ending), (failures.map Prod.fst).Nodup ∧ (∀ t, t ∈ failures.map Prod.fst ↔ HasFailed t s.log) ∧
      failures.Sublist (s.log.filterMap fun | .ended t e => some (t, e) | _ => none) ∧
      List.Forall₂ (fun a text => ∃ x c, ets[a.1]? = some x ∧ LastRun l x c ∧ WarningText k.noUi a.2 x.2 (shown c) text)
        failures ws := by
  refine ⟨s.log.filterMap failing, h.loop.reach.inv.good.failing_nodup, fun t => hasFailed_failing.symm, ?_, ?_⟩
  · generalize s.log = log
    induction log with
    | nil => exact .slnil
    | cons e log ih =>
      cases e with
      | ended t e =>
        cases e <;> simp only [List.filterMap_cons, failing]
        · exact ih.cons_cons _
        · exact ih.cons_cons _
        · exact ih.cons _
        · exact ih.cons _
      | _ => exact ih
  · refine (h.inv hd).2.imp ?_
    rintro a text ⟨-, x, c, hx, hl, ht⟩
    refine ⟨x, c, hx, hl, ?_⟩
    have : k.targets.getD a.1 [] = x.2 := by
      rw [hk, List.getD_eq_getElem?_getD, List.getElem?_map, hx]
      rfl
    rwa [this] at ht

/-- **C109 (all failed).** If the loop gives up because all targets failed, then each target has been warned about, exactly once, and
nothing else is written. -/
theorem C109_all_failed (hd : (ets.map fun x => (x.1.path, x.2)).Nodup) (hk : k.targets = ets.map Prod.snd) {s w l ex ws}
    (h : Warned fz o y llvm k ets w₀ shown s w l ex ws) (inp : Inp) (hall : ∀ t < ets.length, HasFailed t s.log) :
    iterateWarnings k exec inp s = [] ∧ ws.length = ets.length ∧
      ∀ x ∈ ets, ∃ text ∈ ws, ∃ e c, LastRun l x c ∧ WarningText k.noUi e x.2 (shown c) text := by
  obtain ⟨fs, h1, h2, -, h4⟩ := C109_warnings hd hk h
  have hn : k.targets.length = ets.length := by rw [hk, List.length_map]
  have hperm : (fs.map Prod.fst).Perm (List.range ets.length) := by
    refine (List.perm_ext_iff_of_nodup h1 List.nodup_range).mpr fun t => ?_
    rw [h2, List.mem_range]
    refine ⟨fun hf => ?_, hall t⟩
    have := (h.loop.reach.inv.fails t).mpr hf
    have := h.loop.reach.inv.flt t this
    rw [← hn]
    exact this
  refine ⟨?_, ?_, fun x hx => ?_⟩
  · unfold iterateWarnings
    cases hr : refreshState k inp.term s with
    | ok s1 =>
      have : s1.failed.length = k.n := (failed_all_iff (Inv.refresh h.loop.reach.inv hr)).mpr (by
        obtain ⟨b, rfl⟩ := refreshState_eq hr
        rw [hn]
        exact hall)
      simp [this]
    | _ => rfl
  · rw [← h4.length_eq, ← List.length_map (f := Prod.fst), hperm.length_eq, List.length_range]
  · obtain ⟨t, ht, hxt⟩ := List.mem_iff_getElem.mp hx
    have : t ∈ fs.map Prod.fst := by rw [hperm.mem_iff, List.mem_range]; exact ht
    obtain ⟨a, ha, rfl⟩ := List.mem_map.mp this
    obtain ⟨text, hm, x', c, hx', hl, htext⟩ := forall₂_meets h4 a ha
    rw [List.getElem?_eq_getElem ht] at hx'
    cases hx'
    rw [hxt] at hl htext
    exact ⟨text, hm, a.2, c, hl, htext⟩

/-- An event that ends the loop is not warned about. -/
theorem eventWarnings_fail {ev : Event} {s : FState} (h : ∀ s', processEvent k ev s ≠ .ok s') : eventWarnings k exec ev s = [] := by
  unfold eventWarnings
  unfold processEvent at h
  cases h1 : processRead k ev s with
  | ok p =>
    obtain ⟨s1, c⟩ := p
    rw [h1] at h
    simp only [Out.ok_bind] at h ⊢
    cases hrc : ev.readClosed with
    | false => rfl
    | true =>
      rw [hrc] at h
      simp only [if_true] at h
      unfold reap at h
      simp only at h
      cases hd : ev.deregOk with
      | false => rfl
      | true =>
        simp only [hd, Bool.not_true, Bool.false_eq_true, if_false] at h
        by_cases hn : s1.nChildren = 0
        · simp [hn]
        · rw [if_neg hn] at h
          unfold warning
          cases hw : ev.wait with
          | error => simp
          | status ok =>
            simp only [hw] at h
            cases ok with
            | false => exact absurd rfl (h _)
            | true =>
              cases ha : c.aborted with
              | false => simp only [ha, Bool.not_true, Bool.not_false, Bool.false_eq_true, if_false, if_true] at h; exact absurd rfl (h _)
              | true => simp
  | _ => rfl

theorem Inv.polled {s : FState} (hi : s.Inv k) (hw : wantsTask k s = false) (hn : s.nChildren ≠ 0) :
    FState.Inv k { s with log := s.log ++ [.poll] } := by
  unfold FState.Inv at hi ⊢
  have hit : s.iter = s.iTask := hi.iter_eq
  rw [hit] at hi
  simp only [hit]
  refine hi.poll hn ?_
  intro hc
  have : wantsTask k s = true := by simpa [wantsTask] using hc
  rw [hw] at this; cases this

/-- **C109 (the end).** In its last iteration, too, however it ends – by an error or because of `--exit-code` –, the loop writes only
warnings, about targets that had not failed before, and at most one for each. -/
theorem C109_last {s : FState} (h : Reach k s) (inp : Inp) :
    ∃ failures : List (Nat × Ending), (failures.map Prod.fst).Nodup ∧
      List.Forall₂ (fun a text => a.1 < k.targets.length ∧ ¬ HasFailed a.1 s.log ∧
        WarningText k.noUi a.2 (k.targets.getD a.1 []) (exec a.1) text) failures (iterateWarnings k exec inp s) := by
  have batch : ∀ (evs : List Event) (s : FState), s.Inv k → s.OInv k → ∃ s' : FState, s'.Inv k ∧ ∃ new, s'.log = s.log ++ new ∧
      List.Forall₂ (fun (a : Nat × Ending) text => a.1 < k.n ∧
        WarningText k.noUi a.2 (k.targets.getD a.1 []) (exec a.1) text) (new.filterMap failing) (batchWarnings k exec evs s) := by
    intro evs
    induction evs with
    | nil => exact fun s hi _ => ⟨s, hi, [], by simp, .nil⟩
    | cons ev evs ih =>
      intro s hi ho
      unfold batchWarnings
      rcases Classical.em (∃ s', processEvent k ev s = .ok s') with ⟨s1, h1⟩ | hno
      · obtain ⟨n1, e1, f1⟩ := eventWarnings_ok (exec := exec) ho h1
        obtain ⟨s2, hi2, n2, e2, f2⟩ := ih s1 (Inv.processEvent hi h1) (OInv.processEvent ho h1)
        refine ⟨s2, hi2, n1 ++ n2, by rw [e2, e1, List.append_assoc], ?_⟩
        rw [h1, List.filterMap_append]
        exact List.rel_append f1 f2
      · push Not at hno
        rw [eventWarnings_fail hno]
        refine ⟨s, hi, [], by simp, ?_⟩
        cases h1 : processEvent k ev s with
        | ok s1 => exact absurd h1 (hno s1)
        | _ => exact .nil
  unfold iterateWarnings
  cases hr : refreshState k inp.term s with
  | ok s1 =>
    simp only
    split
    · exact ⟨[], by simp, .nil⟩
    · next hcond =>
      cases hp : inp.poll with
      | none => exact ⟨[], by simp, .nil⟩
      | some evs =>
        simp only
        simp only [Bool.or_eq_true, decide_eq_true_eq, not_or, Bool.not_eq_true] at hcond
        have hlog : s1.log = s.log := by obtain ⟨b, rfl⟩ := refreshState_eq hr; rfl
        have hi1 := Inv.refresh h.inv hr
        have ho1 := OInv.refresh h.inv h.oinv hr
        obtain ⟨s2, hi2, new, e, f⟩ := batch evs { s1 with log := s1.log ++ [.poll] } (Inv.polled hi1 hcond.1.2 hcond.2) ⟨ho1.1, ho1.2⟩
        simp only [hlog] at e
        have hnd := hi2.good.failing_nodup
        rw [e, List.filterMap_append, List.map_append] at hnd
        obtain ⟨-, hnd2, hdis⟩ := List.nodup_append.mp hnd
        refine ⟨new.filterMap failing, hnd2, forall₂_imp_left f fun a ha text hh => ⟨hh.1, fun hf => ?_, hh.2⟩⟩
        refine hdis a.1 ?_ a.1 (List.mem_map.mpr ⟨a, ha, rfl⟩) rfl
        rw [← hasFailed_failing, hasFailed_append]
        exact .inl hf
  | _ => exact ⟨[], by simp, .nil⟩

end

/-! ## A case -/

namespace WarnDemo

open Demo

/-- How the commands are shown does not matter; here, by their last argument. -/
def shown (c : Cmd) : Str := c.args.getLastD []

/-- The loop on a list of inputs. -/
def go (o : Opts) (y : Sys) (k : FCfg) (ets : List (Exe × Str)) : List Inp → FState → World → List (Cmd × FS) →
    (Nat → Option Cmd) → List Bytes → Option (FState × World × List (Cmd × FS) × (Nat → Option Cmd) × List Bytes)
  | i :: is, s, w, l, ex, ws =>
    let ws' := ws ++ iterateWarnings k (fun i => ((ex i).map shown).getD []) i s
    match iterateIO o y [] k ets i s y.plan w with
    | (.ok (.cont s', none), w') => go o y k ets is s' w' l ex ws'
    | (.ok (.cont s', some c), w') => go o y k ets is s' w' (l ++ [(c, w'.fs)]) (keepExec k s c ex) ws'
    | _ => none
  | [], s, w, l, ex, ws => some (s, w, l, ex, ws)

theorem go_warned {fz : FS → FS → Prop} {o : Opts} {y : Sys} {k : FCfg} {ets : List (Exe × Str)} {w₀ : World} :
    ∀ (is : List Inp) s w l ex ws r, Warned fz o y [] k ets w₀ shown s w l ex ws → go o y k ets is s w l ex ws = some r →
      Warned fz o y [] k ets w₀ shown r.1 r.2.1 r.2.2.1 r.2.2.2.1 r.2.2.2.2
  | [], _, _, _, _, _, r, h, he => by unfold go at he; cases he; exact h
  | i :: is, s, w, l, ex, ws, r, h, he => by
    unfold go at he
    simp only at he
    split at he
    · next s' w' hi => exact go_warned is _ _ _ _ _ r (.quiet h hi) he
    · next s' c w' hi => exact go_warned is _ _ _ _ _ r (.started h hi) he
    · cases he

def k : FCfg := ⟨[c%"a", c%"b"], 2, true, false, List.length⟩

/-- The fuzzer of `b` fails, and then that of `a` ends without saying why. -/
def inps : List Inp := [quiet, quiet, evs [endEv 1 [] false], evs [endEv 0 [] true]]

theorem run_is : (go LoopDemo.o sys k LoopDemo.ets inps (FState.init k) LoopDemo.world [] (fun _ => none) []).map (fun r =>
      (r.1.log.filterMap failing, r.2.2.2.2)) =
    some ([(1, .failed), (0, .notAborted)],
      [utf8Encode c%"Warning: Command failed for target b: b_fuzz__::entry\nstdout: ```\n\n```\n",
       utf8Encode c%"Warning: Could not find \"Testing aborted programmatically\" in command output for target a: a_fuzz__::entry\n"]) := by
  decide +kernel

/-- The hypotheses of `C109_warnings` and `C109_all_failed` hold. -/
example : (LoopDemo.ets.map fun x => (x.1.path, x.2)).Nodup ∧ k.targets = LoopDemo.ets.map Prod.snd ∧
    ∃ s w l ex ws, Warned LoopDemo.fz LoopDemo.o sys [] k LoopDemo.ets LoopDemo.world shown s w l ex ws ∧
      (∀ t < LoopDemo.ets.length, HasFailed t s.log) ∧ ws.length = 2 := by
  refine ⟨by decide, by decide, ?_⟩
  obtain ⟨r, h1, h2⟩ := Option.map_eq_some_iff.mp run_is
  simp only [Prod.mk.injEq] at h2
  refine ⟨r.1, r.2.1, r.2.2.1, r.2.2.2.1, r.2.2.2.2, go_warned _ _ _ _ _ _ r .init h1, ?_, by rw [h2.2]; rfl⟩
  intro t ht
  rw [hasFailed_failing, h2.1]
  have : t < 2 := ht
  rcases t with _ | _ | t
  · decide
  · decide
  · omega

end WarnDemo

end TF
