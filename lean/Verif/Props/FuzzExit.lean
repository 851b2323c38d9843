import Verif.Props.FuzzOutput
import Verif.Lemmas.Run

/-! # How the fuzzing loop ends: C41 -/

namespace TF

open Spec

/-- All of a fuzzer's output after an event, in terms of the child after the read. -/
theorem processRead_output {k : FCfg} {ev : Event} {s s1 : FState} {c : FChild} (ho : s.OInv k)
    (h : processRead k ev s = .ok (s1, c)) : OutputAfter s ev c.lines ∧ ∀ lines, OutputAfter s ev lines → lines = c.lines := by
  obtain ⟨ho1, hc1⟩ := OInv.processRead ho h
  obtain ⟨c0, b, text, rest, prev', printed', hc, hlt, hr, ht, hpl, rfl⟩ := processRead_occ h
  have hout := (ho1.2 _ _ hc1).out
  have hrecv : c.recv = c0.recv ++ b := by
    have := processLines_recv k ev.token (strLines text)
      { c0 with unprinted := rest, recv := c0.recv ++ b, lines := c0.lines ++ strLines text } s.prev s.printed
    rw [hpl] at this; exact this
  rw [hrecv] at hout
  refine ⟨⟨c0, b, _, hc, readLoop_iff.mp hr, hout⟩, ?_⟩
  rintro lines ⟨c', b', rest', hc', hr', ho'⟩
  rw [hc] at hc'; cases hc'
  rw [readLoop_of_reads hr'] at hr; cases hr
  exact (output_unique ho' hout).1

/-- If the complete output is known, the read succeeds. -/
theorem processRead_of_output {k : FCfg} {ev : Event} {s : FState} (hi : s.Inv k) (ho : s.OInv k) {lines : List Str}
    (h : OutputAfter s ev lines) : ∃ s1 c, processRead k ev s = .ok (s1, c) := by
  obtain ⟨c, b, rest, hc, hr, hout⟩ := h
  have hr := readLoop_of_reads hr
  have hocc0 : (occ s.children)[ev.token]? = some true := occ_getElem.mpr ⟨_, hc, rfl⟩
  have hlt : ev.token < k.n := by
    rw [← hi.len]; exact (List.getElem?_eq_some_iff.mp hocc0).1
  obtain ⟨l1, r1, l2, o1, o2, -⟩ := output_split hout
  obtain ⟨-, rfl⟩ := output_unique o1 (ho.2 _ _ hc).out
  obtain ⟨text, h6, -⟩ := takeText_of_output o2
  unfold processRead
  simp only [hlt, if_true, hc, hr, Out.ok_bind, h6]
  exact ⟨_, _, rfl⟩

/-- One event ends the command with a status exactly if exit codes are wanted and a fuzzer ended early. -/
theorem processEvent_exit {k : FCfg} {ev : Event} {s : FState} (hi : s.Inv k) (ho : s.OInv k) (code : Nat) :
    processEvent k ev s = .exit code ↔ k.exitCode = true ∧ code = 1 ∧ EndsEarly s ev := by
  constructor
  · intro h
    unfold processEvent at h
    cases h1 : processRead k ev s with
    | ok p =>
      obtain ⟨s1, c⟩ := p
      rw [h1, Out.ok_bind] at h
      simp only at h
      obtain ⟨ho1, hc1⟩ := OInv.processRead ho h1
      have hinv := ho1.2 _ _ hc1
      split at h
      · next hcl =>
        unfold reap at h
        simp only at h
        split at h
        · cases h
        · next hd =>
          split at h
          · cases h
          · split at h
            · cases h
            · next ok hw =>
              split at h
              · cases h
              · next hok =>
                split at h
                · cases h
                · next hab =>
                  split at h
                  · next hx =>
                    cases h
                    simp only [Bool.and_eq_true, Bool.not_eq_true', Bool.not_eq_false] at hx hab hok hd
                    subst hok
                    refine ⟨hx.1, rfl, hcl, hd, hw, c.lines, (processRead_output ho h1).1, hinv.ab.mp hab, ?_⟩
                    rw [← hinv.tl, hx.2]; simp
                  · cases h
      · cases h
    | exit e =>
      exfalso
      unfold processRead at h1
      split at h1
      · split at h1
        · cases hr : readLoop ev.reads with
          | ok b =>
            rw [hr, Out.ok_bind] at h1
            cases ht : takeText (_ ++ b) with
            | ok p => rw [ht, Out.ok_bind] at h1; cases h1
            | exit e =>
              unfold takeText at ht
              split at ht
              · split at ht <;> cases ht
              · cases ht
            | _ => rw [ht] at h1; cases h1
          | exit e =>
            exfalso
            clear h1 h ho hi
            generalize ev.reads = r at hr
            induction r with
            | nil => cases hr
            | cons a r ih =>
              cases a with
              | data d =>
                unfold readLoop at hr
                split at hr
                · cases hr
                · cases hr' : readLoop r with
                  | exit e' => rw [hr'] at hr; cases hr; exact ih hr'
                  | _ => rw [hr'] at hr; cases hr
              | _ => cases hr
          | _ => rw [hr] at h1; cases h1
        · cases h1
      · cases h1
    | _ => rw [h1] at h; cases h
  · rintro ⟨hx, rfl, hcl, hd, hw, lines, hout, hab, htl⟩
    obtain ⟨s1, c, h1⟩ := processRead_of_output hi ho hout
    obtain ⟨ho1, hc1⟩ := OInv.processRead ho h1
    have hinv := ho1.2 _ _ hc1
    have hl := (processRead_output ho h1).2 lines hout
    subst hl
    obtain ⟨hi1, hocc1⟩ := Inv.processRead hi h1
    have hpos : s1.nChildren ≠ 0 := by
      have := countP_pos_of hocc1
      have h2 := hi1.cnt
      omega
    have htl' : c.timeLimit = false := by
      cases h : c.timeLimit with
      | false => rfl
      | true => exact absurd (hinv.tl.mp h) htl
    unfold processEvent
    rw [h1, Out.ok_bind]
    simp only [hcl, if_true]
    unfold reap
    simp [hd, hw, hpos, hinv.ab.mpr hab, htl', hx]

theorem EndsEarly.congr {s s' : FState} {ev : Event} 
    (h : ∀ c, s'.children[ev.token]? = some (some c) → ∃ c0, s.children[ev.token]? = some (some c0) ∧ c0.recv = c.recv)
    (he : EndsEarly s' ev) : EndsEarly s ev := by
  obtain ⟨h1, h2, h3, lines, ⟨c, b, rest, h4, h5, h6⟩, h7⟩ := he
  obtain ⟨c0, h8, h9⟩ := h c h4
  exact ⟨h1, h2, h3, lines, ⟨c0, b, rest, h8, h5, by rw [h9]; exact h6⟩, h7⟩

theorem processEvents_exit {k : FCfg} {evs : List Event} {s : FState} (hi : s.Inv k) (ho : s.OInv k)
    (hnd : (evs.map Event.token).Nodup) {code : Nat} (h : processEvents k evs s = .exit code) :
    k.exitCode = true ∧ code = 1 ∧ ∃ ev ∈ evs, EndsEarly s ev := by
  induction evs generalizing s with
  | nil => cases h
  | cons ev evs ih =>
    rw [List.map_cons, List.nodup_cons] at hnd
    unfold processEvents at h
    cases h1 : processEvent k ev s with
    | ok s1 =>
      rw [h1, Out.ok_bind] at h
      obtain ⟨h2, h3, ev', h4, h5⟩ := ih (Inv.processEvent hi h1) (OInv.processEvent ho h1) hnd.2 h
      refine ⟨h2, h3, ev', by simp [h4], EndsEarly.congr (fun c hc => ?_) h5⟩
      have hne : ev.token ≠ ev'.token := fun he => hnd.1 (he ▸ List.mem_map_of_mem h4)
      rw [processEvent_other h1 hne] at hc
      exact ⟨c, hc, rfl⟩
    | exit e =>
      rw [h1] at h; cases h
      obtain ⟨h2, h3, h4⟩ := (processEvent_exit hi ho code).mp h1
      exact ⟨h2, h3, ev, by simp, h4⟩
    | _ => rw [h1] at h; cases h

theorem processEvents_exit_of {k : FCfg} {evs : List Event} {s : FState} (hi : s.Inv k) (ho : s.OInv k)
    (hx : k.exitCode = true) (hv : ValidBatch s evs) (hf : ∀ ev ∈ evs, EventFine s ev)
    (he : ∃ ev ∈ evs, EndsEarly s ev) : processEvents k evs s = .exit 1 := by
  induction evs generalizing s with
  | nil => simp at he
  | cons ev evs ih =>
    obtain ⟨hnd, hall⟩ := hv
    rw [List.map_cons, List.nodup_cons] at hnd
    unfold processEvents
    by_cases h0 : EndsEarly s ev
    · rw [(processEvent_exit hi ho 1).mpr ⟨hx, rfl, h0⟩]; rfl
    · obtain ⟨c, hc⟩ := hall ev (by simp)
      have hok : ∃ s1, processEvent k ev s = .ok s1 := by
        obtain ⟨g1, ⟨ok, g2⟩, g3⟩ := hf ev (by simp)
        obtain ⟨b, lines, rest, g4, g5⟩ := g3 c hc
        have hout : OutputAfter s ev (c.lines ++ lines) :=
          ⟨c, b, rest, hc, g4, output_append (ho.2 _ _ hc).out g5⟩
        obtain ⟨s1, c1, h1⟩ := processRead_of_output hi ho hout
        obtain ⟨ho1, hc1⟩ := OInv.processRead ho h1
        have hinv := ho1.2 _ _ hc1
        obtain ⟨hi1, hocc1⟩ := Inv.processRead hi h1
        have hpos : s1.nChildren ≠ 0 := by
          have := countP_pos_of hocc1
          have h2 := hi1.cnt
          omega
        unfold processEvent
        rw [h1, Out.ok_bind]
        simp only
        by_cases hcl : ev.readClosed = true
        · rw [if_pos hcl]
          unfold reap
          simp only [g1, g2, hpos, Bool.not_true, Bool.false_eq_true, if_false]
          split
          · exact ⟨_, rfl⟩
          · next hok =>
            split
            · exact ⟨_, rfl⟩
            · next hab =>
              split
              · next hee =>
                exfalso
                simp only [Bool.and_eq_true, Bool.not_eq_true', Bool.not_eq_false] at hee hab hok
                subst hok
                refine h0 ⟨hcl, g1, g2, c1.lines, (processRead_output ho h1).1, hinv.ab.mp hab, ?_⟩
                rw [← hinv.tl, hee.2]; simp
              · exact ⟨_, rfl⟩
        · rw [if_neg hcl]; exact ⟨_, rfl⟩
      obtain ⟨s1, h1⟩ := hok
      rw [h1, Out.ok_bind]
      have hne : ∀ ev' ∈ evs, ev.token ≠ ev'.token := fun ev' hev' he =>
        hnd.1 (he ▸ List.mem_map_of_mem hev')
      refine ih (Inv.processEvent hi h1) (OInv.processEvent ho h1) ⟨hnd.2, fun ev' hev' => ?_⟩
        (fun ev' hev' => EventFine.other (hf ev' (by simp [hev'])) h1 (hne ev' hev')) ?_
      · obtain ⟨c', hc'⟩ := hall ev' (by simp [hev'])
        exact ⟨c', by rw [processEvent_other h1 (hne ev' hev')]; exact hc'⟩
      · obtain ⟨ev', hev', hee⟩ := he
        rcases List.mem_cons.mp hev' with rfl | hev'
        · exact absurd hee h0
        · refine ⟨ev', hev', EndsEarly.congr (fun c hc => ?_) hee⟩
          exact ⟨c, by rw [processEvent_other h1 (hne ev' hev')]; exact hc, rfl⟩

theorem refresh_noExit (vis : Bytes → Nat) (n : Bool) (term nc cs) : (refresh vis n term nc cs).NoExit := by
  have hslice : ∀ b i, (sliceTo b i).NoExit := by
    intro b i; unfold sliceTo; split
    · exact .ok _
    · exact .panic
  have hsearch : ∀ b w mi ma, (widthSearch vis b w mi ma).NoExit := by
    intro b w mi ma
    induction mi, ma using widthSearch.induct vis b w with
    | case1 mi ma h mid p hp hv ih => unfold widthSearch; simp only [h, dite_true]; rw [hp]; simp only [hv, if_true]; exact ih
    | case2 mi ma h mid p hp hv ih => unfold widthSearch; simp only [h, dite_true]; rw [hp]; simp only [hv, if_false]; exact ih
    | case3 mi ma h mid hp => unfold widthSearch; simp only [h, dite_true]; rw [hp]; exact .panic
    | case4 mi ma h mid e hp => unfold widthSearch; simp only [h, dite_true]; rw [hp]; exact .err _
    | case5 mi ma h mid c hp => exact absurd hp (hslice _ _ _)
    | case6 mi ma h mid hp => unfold widthSearch; simp only [h, dite_true]; rw [hp]; exact fun _ h => nomatch h
    | case7 mi h => unfold widthSearch; simp only [h, dite_false, if_true]; exact .ok _
    | case8 mi ma h h' => unfold widthSearch; simp only [h, h', dite_false, if_false]; exact .panic
  have hpre : ∀ b w, (prefixWithWidth vis b w).NoExit := fun b w => .bind (hsearch _ _ _ _) fun _ => hslice _ _
  have hlines : ∀ cols buf is, (childLines vis cols buf is).NoExit := by
    intro cols buf is
    induction is with
    | nil => exact .ok _
    | cons i is ih =>
      unfold childLines
      refine .bind ?_ fun _ => .bind ih fun _ => .ok _
      unfold rowOf; split
      · exact hpre _ _
      · exact .ok _
  unfold refresh
  split
  · exact .ok _
  · split
    · exact .panic
    · next rows cols =>
      split
      · exact .ok _
      · refine .bind (.assert _) fun _ => ?_
        generalize 0 = i, rows - (nc + 1) = av
        induction cs generalizing i with
        | nil => exact .ok _
        | cons c cs ih =>
          obtain ⟨t, b⟩ := c
          unfold refreshChildren
          refine .bind ?_ fun _ => .bind (hlines _ _ _) fun _ => .bind (ih _) fun _ => .ok _
          unfold dividerWithWidth
          dsimp only
          split
          · exact hpre _ _
          · exact .ok _

theorem refreshState_noExit (k : FCfg) (term) (s : FState) : (refreshState k term s).NoExit :=
  .bind (refresh_noExit _ _ _ _ _) fun _ => .ok _

/-- An iteration of the loop ends the command with a status only if exit codes are wanted, and then the status is 1
and a fuzzer ended by itself without having reached its time limit. -/
theorem C41_exit_only_if (k : FCfg) (s : FState) (h : Reach k s) (inp : Inp)
    (hv : ∀ evs, inp.poll = some evs → ValidBatch s evs) (code : Nat) (he : iterate k inp s = .exit code) :
    k.exitCode = true ∧ code = 1 ∧ ∃ evs, inp.poll = some evs ∧ ∃ ev ∈ evs, EndsEarly s ev := by
  have hex : ∃ s1, refreshState k inp.term s = .ok s1 := by
    unfold iterate at he
    cases h1 : refreshState k inp.term s with
    | ok s1 => exact ⟨s1, rfl⟩
    | exit c => exact absurd h1 (refreshState_noExit _ _ _ _)
    | _ => rw [h1] at he; cases he
  obtain ⟨s1, h1⟩ := hex
  have hl : s.children.length = k.targets.length := by
    have := h.inv.len; simpa [occ, FCfg.n] using this
  have hi1 := Inv.refresh h.inv h1
  have ho1 := OInv.refresh h.inv h.oinv h1
  unfold iterate at he
  rw [h1, Out.ok_bind] at he
  split at he
  · cases he
  · split at he
    · next hw =>
      cases h2 : schedule k inp.spawnOk s1 with
      | exit c =>
        exfalso
        unfold schedule at h2
        split at h2
        · cases h2
        · simp only at h2
          split at h2
          · cases h2
          · split at h2
            · cases h2
            · unfold assert at h2
              split at h2 <;> cases h2
            · unfold assert at h2
              split at h2
              · rw [Out.ok_bind] at h2; split at h2 <;> cases h2
              · cases h2
      | _ => rw [h2] at he; cases he
    · next hw =>
      split at he
      · unfold assert at he
        split at he
        · rw [Out.ok_bind] at he
          split at he <;> cases he
        · cases he
      · next hnz =>
        split at he
        · cases he
        · next evs hp =>
          have hlog : FState.Inv k { s1 with log := s1.log ++ [.poll] } := by
            unfold FState.Inv at hi1 ⊢
            have hit : s1.iter = s1.iTask := hi1.iter_eq
            rw [hit] at hi1
            simp only [hit]
            refine hi1.poll hnz ?_
            simpa [wantsTask] using hw
          cases h2 : processEvents k evs { s1 with log := s1.log ++ [.poll] } with
          | exit c =>
            rw [h2] at he; cases he
            obtain ⟨g1, g2, ev, g3, g4⟩ := processEvents_exit hlog ⟨ho1.1, ho1.2⟩ (hv evs hp).1 h2
            refine ⟨g1, g2, evs, hp, ev, g3, EndsEarly.congr (fun c hc => ?_) g4⟩
            obtain ⟨c0, b, g5, -, rfl⟩ := refreshState_child hl h1 hc
            exact ⟨c0, g5, rfl⟩
          | _ => rw [h2] at he; cases he

/-- If exit codes are wanted and a fuzzer's early end is reported, the command ends with status 1 (the fuzzers are not
all failed, the loop is waiting, and the operations for the other events succeed). -/
theorem C41_exit_if (k : FCfg) (hn : k.noUi = true) (hx : k.exitCode = true) (s : FState) (h : Reach k s) (inp : Inp)
    (hnf : ∃ t < k.targets.length, ¬ HasFailed t s.log) (evs : List Event) (hp : inp.poll = some evs)
    (hv : ValidBatch s evs) (hf : ∀ ev ∈ evs, EventFine s ev) (he : ∃ ev ∈ evs, EndsEarly s ev)
    (hwait : allStarts s.log = allEnds s.log + k.nCpus ∨
      (k.targets.length ≤ k.nCpus ∧ allStarts s.log = k.targets.length)) : iterate k inp s = .exit 1 := by
  obtain ⟨s1, h1, bufs, hs1⟩ := refreshState_noUi hn inp.term s
  have hl : s.children.length = k.targets.length := by
    have := h.inv.len; simpa [occ, FCfg.n] using this
  have hi1 := Inv.refresh h.inv h1
  have ho1 := OInv.refresh h.inv h.oinv h1
  have hlog : s1.log = s.log := by rw [hs1]
  have hnc : s1.nChildren = s.nChildren := by rw [hs1]
  have hit' : s1.iTask = s.iTask := by rw [hs1]
  have hchild : ∀ (i : Nat) c, s.children[i]? = some (some c) → ∃ c1, s1.children[i]? = some (some c1) ∧
      c1.recv = c.recv ∧ c1.unprinted = c.unprinted := by
    intro i c hc
    have : (occ s1.children)[i]? = some true := by
      rw [hs1]; simp only [occ_putBuffers]; exact occ_getElem.mpr ⟨_, hc, rfl⟩
    obtain ⟨o, ho, hsome⟩ := occ_getElem.mp this
    obtain ⟨c1, rfl⟩ := Option.isSome_iff_exists.mp hsome
    obtain ⟨c0, b, g5, -, rfl⟩ := refreshState_child hl h1 ho
    rw [hc] at g5; cases g5
    exact ⟨_, ho, rfl, rfl⟩
  have hpos : s.nChildren ≠ 0 := by
    obtain ⟨ev, hev, -⟩ := he
    obtain ⟨c, hc⟩ := hv.2 ev hev
    have := countP_pos_of (occ_getElem.mpr ⟨_, hc, rfl⟩ : (occ s.children)[ev.token]? = some true)
    have h2 := h.inv.cnt
    omega
  have hw : wantsTask k s1 = false := by
    have htot := h.inv.tot
    unfold wantsTask
    rw [hnc, hit']
    rcases hwait with hw | ⟨hsu, hw⟩
    · have : ¬ s.nChildren < k.nCpus := by omega
      simp [this]
    · have hs' := (sufficient_iff k).mpr hsu
      have := h.inv.suff hs'
      have h3 : ¬ s.iTask < k.n := by rw [← this, hw]; simp [FCfg.n]
      simp [h3, hs']
  have hlog' : FState.Inv k { s1 with log := s1.log ++ [.poll] } := by
    unfold FState.Inv at hi1 ⊢
    have hit : s1.iter = s1.iTask := hi1.iter_eq
    rw [hit] at hi1
    simp only [hit]
    refine hi1.poll (by rw [hnc]; exact hpos) ?_
    simpa [wantsTask] using hw
  have hfl : s1.failed.length ≠ k.n := by
    intro hff
    rw [failed_all_iff hi1, hlog] at hff
    obtain ⟨t, ht, hnt⟩ := hnf
    exact hnt (hff t ht)
  have hpos1 : s1.nChildren ≠ 0 := by rw [hnc]; exact hpos
  have key : processEvents k evs { s1 with log := s1.log ++ [.poll] } = .exit 1 := by
    refine processEvents_exit_of hlog' ⟨ho1.1, ho1.2⟩ hx ⟨hv.1, fun ev hev => ?_⟩ (fun ev hev => ?_) ?_
    · obtain ⟨c, hc⟩ := hv.2 ev hev
      obtain ⟨c1, hc1, -⟩ := hchild _ c hc
      exact ⟨c1, hc1⟩
    · obtain ⟨f1, f2, f3⟩ := hf ev hev
      refine ⟨f1, f2, fun c1 hc1 => ?_⟩
      obtain ⟨c0, b, g5, -, rfl⟩ := refreshState_child hl h1 hc1
      exact f3 c0 g5
    · obtain ⟨ev, hev, hee⟩ := he
      refine ⟨ev, hev, EndsEarly.congr (fun c hc => ?_) hee⟩
      obtain ⟨c1, hc1, hr, -⟩ := hchild _ c hc
      exact ⟨c1, hc1, hr⟩
  unfold iterate
  rw [h1, Out.ok_bind]
  simp only [hfl, if_false, hw, Bool.false_eq_true, hpos1, hp]
  rw [key]
  rfl

/-- The recorded endings are what the fuzzers' exit statuses and complete outputs say. -/
theorem C41_endings (k : FCfg) (s s' : FState) (h : Reach k s) (ev : Event) (hc : ev.readClosed = true)
    (he : processEvent k ev s = .ok s') :
    ∃ e lines, s'.log = s.log ++ [.ended ev.token e] ∧ OutputAfter s ev lines ∧
      (e = .failed ↔ ev.wait = .status false) ∧
      (e = .notAborted ↔ ev.wait = .status true ∧ ¬ SaysAborted lines) ∧
      (e = .timeLimit ↔ ev.wait = .status true ∧ SaysAborted lines ∧ SaysTimeLimit lines) ∧
      (e = .early ↔ ev.wait = .status true ∧ SaysAborted lines ∧ ¬ SaysTimeLimit lines) := by
  unfold processEvent at he
  cases h1 : processRead k ev s with
  | ok p =>
    obtain ⟨s1, c⟩ := p
    rw [h1, Out.ok_bind] at he
    simp only [hc, if_true] at he
    obtain ⟨ho1, hc1⟩ := OInv.processRead h.oinv h1
    have hinv := ho1.2 _ _ hc1
    have hout := (processRead_output h.oinv h1).1
    have hlog : s1.log = s.log := by
      obtain ⟨_, _, _, _, _, _, _, _, _, _, _, rfl⟩ := processRead_occ h1; rfl
    obtain ⟨e, hcase, rfl⟩ := reap_ok he
    refine ⟨e, c.lines, by simp [hlog], hout, ?_⟩
    rw [← hinv.ab, ← hinv.tl]
    rcases hcase with ⟨rfl, hw⟩ | ⟨rfl, hw, ha⟩ | ⟨rfl, hw, ha, ht⟩ | ⟨rfl, hw, ha, ht, -⟩ <;> simp [*]
  | _ => rw [h1] at he; cases he

/-- With exit codes, if the loop ends normally then every fuzzer has reached its time limit or failed, and at least one
has reached it. -/
theorem C41_normal_end (k : FCfg) (hx : k.exitCode = true) (s s' : FState) (h : Reach k s) (inp : Inp)
    (hd : iterate k inp s = .ok (.done s')) :
    (∀ t < k.targets.length, .ended t .timeLimit ∈ s'.log ∨ HasFailed t s'.log) ∧
      ∃ t < k.targets.length, .ended t .timeLimit ∈ s'.log := by
  obtain ⟨h1, h2, h3, h4, h5⟩ := iterate_done hd
  have hi1 := Inv.refresh h.inv h1
  obtain ⟨-, hlog, -, hall⟩ := C36_done k s s' h inp hd
  have key : ∀ t < k.targets.length, .ended t .timeLimit ∈ s'.log ∨ HasFailed t s'.log := by
    intro t ht
    have he := (hall t ht).2
    rw [← hlog] at he
    have hpos : 0 < s'.log.countP (isEnded t) := by unfold ends at he; omega
    obtain ⟨ev, hm, hev⟩ := List.countP_pos_iff.mp hpos
    cases ev with
    | ended slot e =>
      simp only [isEnded, beq_iff_eq] at hev
      subst hev
      obtain ⟨pre, post, hsplit⟩ := List.append_of_mem hm
      have hg := hi1.good.at pre _ post hsplit
      have hne := hg.2.2.2.1 hx
      cases e with
      | failed => exact Or.inr (Or.inl hm)
      | notAborted => exact Or.inr (Or.inr hm)
      | timeLimit => exact Or.inl hm
      | early => exact absurd rfl hne
    | _ => simp [isEnded] at hev
  refine ⟨key, ?_⟩
  rw [Ne, failed_all_iff hi1] at h2
  push Not at h2
  obtain ⟨t, ht, hnt⟩ := h2
  exact ⟨t, ht, (key t ht).resolve_right hnt⟩

end TF
