import Verif.Props.FuzzCases
import Verif.Props.Storage
import Verif.Props.CommandEnv
import Verif.Props.Ui
import Mathlib.Data.List.Perm.Subperm

/-! # Where expectations hold and where they fail: C31, C38, C45, C64 -/

namespace TF

open Spec

/-! ## C38 -/

theorem countP_le_of_idle {o : List Bool} {failed : List Nat} (hn : failed.Nodup) (hlt : ∀ i ∈ failed, i < o.length)
    (h : ∀ i ∈ failed, o[i]? ≠ some true) : failed.length + o.countP id ≤ o.length := by
  have hcount : ((List.range o.length).filter (fun i => o[i]? = some true)).length = o.countP id := by
    rw [← List.countP_eq_length_filter]
    clear h hn hlt
    induction o with
    | nil => rfl
    | cons x o ih =>
      rw [List.length_cons, List.range_succ_eq_map, List.countP_cons, List.countP_map, List.countP_cons, ← ih]
      congr 1
      cases x <;> simp
  have hnd : (failed ++ (List.range o.length).filter (fun i => o[i]? = some true)).Nodup := by
    refine List.nodup_append.mpr ⟨hn, List.nodup_range.filter _, fun a ha b hb => ?_⟩
    rintro rfl
    rw [List.mem_filter] at hb
    exact h a ha (by simpa using hb.2)
  have hsub : failed ++ (List.range o.length).filter (fun i => o[i]? = some true) ⊆ List.range o.length := by
    intro i hi
    rcases List.mem_append.mp hi with hi | hi
    · exact List.mem_range.mpr (hlt i hi)
    · exact (List.mem_filter.mp hi).1
  have hle := (List.subperm_of_subset hnd hsub).length_le
  rw [List.length_append, List.length_range] at hle
  omega

/-- Too few targets are left: fewer cpus than targets, but more cpus than targets that have not failed. -/
def Spec.TooFewLeft (k : FCfg) (l : List LogEv) : Prop :=
  k.nCpus < k.targets.length ∧ k.targets.length < k.nCpus + failedCount k.targets.length l

theorem tooFew_step {k : FCfg} {s s' : FState} {inp : Inp} (h : Reach k s) (hf : TooFewLeft k s.log)
    (hs : iterate k inp s = .ok (.cont s')) :
    s'.failed = s.failed ∧ ∃ e, s'.log = s.log ++ [e] ∧ e ≠ .poll := by
  obtain ⟨s1, h1, -, ⟨hw, h2⟩ | ⟨hw, hn, evs, -, h2⟩⟩ := iterate_cont hs
  · obtain ⟨bufs, hs1⟩ := refreshState_eq h1
    refine ⟨by rw [(schedule_effect h2).1, hs1], ?_⟩
    have hl : s1.log = s.log := by rw [hs1]
    rw [← hl]
    unfold schedule at h2
    split at h2
    · cases h2
    · simp only at h2
      split at h2
      · cases h2; exact ⟨_, rfl, by simp⟩
      · split at h2
        · cases h2
        · cases hk : k.sufficient with
          | true => rw [hk] at h2; cases h2
          | false => rw [hk] at h2; cases h2; exact ⟨_, rfl, by simp⟩
        · have : ∃ u, assert (decide (s1.iTask < k.n) || !k.sufficient) = .ok u := by
            cases ha : assert (decide (s1.iTask < k.n) || !k.sufficient) with
            | ok u => exact ⟨u, rfl⟩
            | _ => simp only [ha] at h2; cases h2
          obtain ⟨u, hu⟩ := this
          simp only [hu, Out.ok_bind] at h2
          split at h2
          · cases h2; exact ⟨_, rfl, by simp⟩
          · cases h2
  · exfalso
    have hi := Inv.refresh h.inv h1
    obtain ⟨bufs, hs1⟩ := refreshState_eq h1
    have hl : s1.log = s.log := by rw [hs1]
    have hle := countP_le_of_idle hi.nodup (fun i hi' => by rw [hi.len]; exact hi.flt i hi') (fun i hi' => by
      rw [hi.fidle i hi']; simp)
    rw [hi.len, ← hi.cnt, mem_failed_iff hi, hl] at hle
    obtain ⟨q1, q2⟩ := hf
    have hsf : k.sufficient = false := by
      cases hx : k.sufficient with
      | false => rfl
      | true => have := (sufficient_iff k).mp hx; omega
    simp only [wantsTask, hsf, Bool.not_false, Bool.or_true, Bool.and_true, decide_eq_false_iff_not,
      Bool.not_eq_true] at hw
    simp only [FCfg.n] at *
    omega

/-- Once too few targets are left, the loop never waits for events again, however long it runs and whatever the fuzzers
do. -/
theorem C38_starves (k : FCfg) (ss : Nat → FState) (inp : Nat → Inp) (h0 : Reach k (ss 0)) (n : Nat)
    (hstep : ∀ i < n, iterate k (inp i) (ss i) = .ok (.cont (ss (i + 1)))) (hf : TooFewLeft k (ss 0).log) :
    ∀ i < n, ∃ e, (ss (i + 1)).log = (ss i).log ++ [e] ∧ e ≠ .poll := by
  have key : ∀ i ≤ n, Reach k (ss i) ∧ TooFewLeft k (ss i).log := by
    intro i
    induction i with
    | zero => exact fun _ => ⟨h0, hf⟩
    | succ i ih =>
      intro hi
      obtain ⟨h1, h2⟩ := ih (by omega)
      have h3 := hstep i (by omega)
      have h4 : Reach k (ss (i + 1)) := .step h1 h3
      refine ⟨h4, ?_⟩
      have e := (tooFew_step h1 h2 h3).1
      have e1 := mem_failed_iff h1.inv
      have e2 := mem_failed_iff h4.inv
      rw [e, e1] at e2
      obtain ⟨q1, q2⟩ := h2
      exact ⟨q1, by simp only [FCfg.n] at e2; rw [← e2]; exact q2⟩
  exact fun i hi => (tooFew_step (key i (by omega)).1 (key i (by omega)).2 (hstep i hi)).2

/-- Exactly when fuzzers' exits are noticed: in the next `n + 1` iterations (`n` the number of targets) the loop waits for
events at least once, unless too few targets are left; then it does not wait at all. -/
theorem C38_waits_exactly (k : FCfg) (ss : Nat → FState) (inp : Nat → Inp) (h0 : Reach k (ss 0))
    (hstep : ∀ i ≤ k.targets.length, iterate k (inp i) (ss i) = .ok (.cont (ss (i + 1)))) :
    (∃ i ≤ k.targets.length, ∃ rest, (ss (i + 1)).log = (ss i).log ++ .poll :: rest) ↔ ¬ TooFewLeft k (ss 0).log := by
  constructor
  · rintro ⟨i, hi, rest, hr⟩ hf
    obtain ⟨e, he, hne⟩ := C38_starves k ss inp h0 (k.targets.length + 1) (fun i hi => hstep i (by omega)) hf i (by omega)
    rw [hr] at he
    have := List.append_cancel_left he
    cases this
    exact hne rfl
  · intro hf
    refine C38_waits_within_one_pass k ss inp h0 hstep ?_
    by_cases h : k.targets.length ≤ k.nCpus
    · exact .inl h
    · right
      by_contra hc
      exact hf ⟨by omega, by omega⟩

/-! ## C31 -/

/-- `--consolidate-all` succeeds exactly if `--reset-all` is given too, or one target is selected. -/
theorem C31_consolidate_all_exactly (o : Opts) (hc : o.consolidateAll = true) (c : Ctx) (ls : Lister)
    (hls : GoodLister ls) (root : Path) (ets : List (Exe × List Str)) (hsel : ValidSel c root ets) (w : World)
    (hcorp : ∀ x ∈ pairs ets, ∀ corp, dirOf c x.1.name x.2 .corpus = .ok corp →
      Creatable w.fs corp ∧ ∀ name, w.fs (corp ++ [name]) ≠ some .dir)
    (hout : ∀ x ∈ pairs ets, ∀ out, dirOf c x.1.name x.2 .output = .ok out →
      w.fs out = some .dir ∧ Readable w.fs out) :
    (∃ w', storage o c ls ets Plan.clean w = (.ok (), w')) ↔ (o.resetAll = true ∨ Single ets) := by
  constructor
  · rintro ⟨w', hw⟩
    by_contra hn
    rw [not_or, Bool.not_eq_true] at hn
    exact (C31_consolidate_all_never_finishes o hc hn.1 c ls root ets hsel hn.2 Plan.clean w).1 w' hw
  · exact fun hn => C31_consolidate_all_succeeds o hc c ls hls root ets hsel hn w hcorp hout

/-! ## C64 -/

/-- The directories consulted do not depend on --manifest-path. -/
theorem C64_ignored (o : Opts) (c : Ctx) (k t : Str) (m : Option Str) (d : Path) :
    Consulted { o with manifestPath := m } c k t d ↔ Consulted o c k t d := by
  unfold Consulted
  exact Iff.rfl

/-- So they are those of the workspace given by --manifest-path exactly if that is the workspace of the working directory
(or of `TEST_FUZZ_MANIFEST_PATH`), of two workspaces of which none lies within the other. -/
theorem C64_exactly (o : Opts) (c : Ctx) (k t : Str) (hk : NoSlash k) (w w' : Path)
    (hm : c.metadata o.manifestPath = some w)
    (hother : c.metadata (c.env.var c%"TEST_FUZZ_MANIFEST_PATH") = some w') (hap : w = w' ∨ Apart w w')
    (d : Path) (h : Consulted o c k t d) : w <+: d ↔ w = w' := by
  constructor
  · intro hd
    rcases hap with h1 | h1
    · exact h1
    · exact absurd hd (C64_wrong_workspace o c k t hk w w' hm hother h1 d h)
  · rintro rfl
    exact C64_same_workspace o c k t hk w hm (by rw [hother, hm]) d h

/-! ## C45 -/

/-- Position `i` is inside a character: a continuation byte follows. -/
def Spec.Inside (b : Bytes) (i : Nat) : Prop := ∃ x, b[i]? = some x ∧ 0x80 ≤ x.toNat ∧ x.toNat < 0xC0

theorem sliceTo_eq {b : Bytes} {i : Nat} (hi : i ≤ b.length) :
    (Inside b i → sliceTo b i = .panic) ∧ (¬ Inside b i → sliceTo b i = .ok (b.take i)) := by
  unfold sliceTo isBoundary
  cases hx : b[i]? with
  | none =>
    have := List.getElem?_eq_none_iff.mp hx
    refine ⟨fun ⟨x, h, _⟩ => (by rw [hx] at h; cases h), fun _ => ?_⟩
    rw [if_pos (by simp; omega)]
  | some x =>
    constructor
    · rintro ⟨y, h, h1, h2⟩
      rw [hx] at h
      cases h
      rw [if_neg (by simp; omega)]
    · intro h
      rw [if_pos]
      simp only [Bool.or_eq_true, decide_eq_true_eq]
      by_contra hc
      exact h ⟨x, hx, by omega, by omega⟩

theorem vis_take_mono {vis : Bytes → Nat} (hm : VisMono vis) (b : Bytes) {i j : Nat} (hij : i ≤ j) :
    vis (b.take i) ≤ vis (b.take j) := by
  have h := List.take_append_drop i (b.take j)
  rw [List.take_take, Nat.min_eq_left hij] at h
  rw [← h]
  exact hm _ _

/-- The search on any text. -/
theorem widthSearch_any (vis : Bytes → Nat) (hm : VisMono vis) (b : Bytes) (width : Nat) :
    ∀ k min max, max - min = k → min ≤ max → max ≤ b.length →
      (∀ j < min, vis (b.take j) < width) →
      widthSearch vis b width min max = .panic ∨
      ∃ r, widthSearch vis b width min max = .ok r ∧ min ≤ r ∧ r ≤ max ∧
        (∀ j < r, vis (b.take j) < width) ∧ (r < max → width ≤ vis (b.take r)) := by
  intro k
  induction k using Nat.strongRecOn with
  | _ k ih =>
    intro min max hk hle hlen hlow
    rw [widthSearch]
    by_cases h : min < max
    · simp only [h, dif_pos]
      by_cases hin : Inside b ((min + max) / 2)
      · rw [(sliceTo_eq (by omega)).1 hin]
        exact .inl rfl
      · rw [(sliceTo_eq (by omega)).2 hin]
        simp only
        by_cases hv : vis (b.take ((min + max) / 2)) < width
        · rw [if_pos hv]
          rcases ih (max - ((min + max) / 2 + 1)) (by omega)
            ((min + max) / 2 + 1) max rfl (by omega) hlen (by
              intro j hj
              exact Nat.lt_of_le_of_lt (vis_take_mono hm b (by omega)) hv) with hp | ⟨r, h1, h2, h3, h4, h5⟩
          · exact .inl hp
          · exact .inr ⟨r, h1, by omega, h3, h4, h5⟩
        · rw [if_neg hv]
          rcases ih ((min + max) / 2 - min) (by omega)
            min ((min + max) / 2) rfl (by omega) (by omega) hlow with hp | ⟨r, h1, h2, h3, h4, h5⟩
          · exact .inl hp
          · refine .inr ⟨r, h1, h2, by omega, h4, ?_⟩
            intro hr
            by_cases hr' : r < (min + max) / 2
            · exact h5 hr'
            · have : r = (min + max) / 2 := by omega
              rw [this]; omega
    · have he : min = max := by omega
      rw [dif_neg h, if_pos he]
      exact .inr ⟨min, rfl, Nat.le_refl _, hle, hlow, fun hr => absurd hr h⟩

/-- Whatever the text, cutting it to a width either panics or returns the shortest prefix that shows that many visible
bytes, or the whole text if it shows fewer. -/
theorem C45_truncation (vis : Bytes → Nat) (hm : VisMono vis) (b : Bytes) (width : Nat) :
    prefixWithWidth vis b width = .panic ∨
    ∃ p, prefixWithWidth vis b width = .ok p ∧ ShortestShowing vis b width p := by
  rcases widthSearch_any vis hm b width _ 0 b.length rfl (by omega) (Nat.le_refl _) (by omega) with
    hp | ⟨r, h1, -, h3, h4, h5⟩
  · exact .inl (by unfold prefixWithWidth; rw [hp]; rfl)
  · by_cases hin : Inside b r
    · exact .inl (by unfold prefixWithWidth; rw [h1, Out.ok_bind, (sliceTo_eq h3).1 hin])
    refine .inr ⟨b.take r, ?_, List.take_prefix _ _, ?_, ?_⟩
    · unfold prefixWithWidth
      rw [h1, Out.ok_bind, (sliceTo_eq h3).2 hin]
    · by_cases hr : r < b.length
      · exact Or.inl (h5 hr)
      · have : r = b.length := by omega
        rw [this, List.take_length]
        by_cases hv : width ≤ vis b
        · exact Or.inl hv
        · exact Or.inr ⟨rfl, by omega⟩
    · intro q hq hlen
      rw [List.length_take, Nat.min_eq_left h3] at hlen
      have : q = b.take q.length := List.prefix_iff_eq_take.mp hq
      rw [this]
      exact h4 _ hlen

theorem widthSearch_probes (vis : Bytes → Nat) (hm : VisMono vis) (b : Bytes) (width m : Nat) (hin : Inside b m)
    (h1 : vis (b.take m) < width) (h2 : width ≤ vis (b.take (m + 1))) :
    ∀ k min max, max - min = k → min ≤ m → m < max → max ≤ b.length → widthSearch vis b width min max = .panic := by
  intro k
  induction k using Nat.strongRecOn with
  | _ k ih =>
    intro min max hk hmin hmax hlen
    rw [widthSearch]
    simp only [show min < max by omega, dif_pos]
    by_cases hi : Inside b ((min + max) / 2)
    · rw [(sliceTo_eq (by omega)).1 hi]
    · rw [(sliceTo_eq (by omega)).2 hi]
      simp only
      have hne : (min + max) / 2 ≠ m := by rintro rfl; exact hi hin
      by_cases hlt : (min + max) / 2 < m
      · rw [if_pos (Nat.lt_of_le_of_lt (vis_take_mono hm b (Nat.le_of_lt hlt)) h1)]
        exact ih _ (by omega) _ _ rfl (by omega) hmax hlen
      · have := vis_take_mono hm b (show m + 1 ≤ (min + max) / 2 by omega)
        rw [if_neg (by omega)]
        exact ih _ (by omega) _ _ rfl hmin (by omega) (by omega)

/-- If a character of more than one byte shows something, there is a width at which cutting panics. -/
theorem C45_panics (vis : Bytes → Nat) (hm : VisMono vis) (b : Bytes) (m : Nat) (hin : Inside b m)
    (hv : vis (b.take m) < vis (b.take (m + 1))) : prefixWithWidth vis b (vis (b.take (m + 1))) = .panic := by
  have hlt : m < b.length := by
    obtain ⟨x, hx, -⟩ := hin
    exact (List.getElem?_eq_some_iff.mp hx).1
  unfold prefixWithWidth
  rw [widthSearch_probes vis hm b _ m hin hv (Nat.le_refl _) _ 0 b.length rfl (by omega) hlt (Nat.le_refl _)]
  rfl

/-- A text in which every character shows something when it is complete. -/
def Spec.AllShow (vis : Bytes → Nat) (b : Bytes) : Prop :=
  ∀ m < b.length, ¬ Inside b (m + 1) → vis (b.take m) < vis (b.take (m + 1))

theorem ofNat_inside (k : Nat) : 0x80 ≤ (UInt8.ofNat (128 + k % 64)).toNat ∧ (UInt8.ofNat (128 + k % 64)).toNat < 0xC0 := by
  have h : (UInt8.ofNat (128 + k % 64)).toNat = (128 + k % 64) % 256 := by simp [UInt8.toNat_ofNat']
  rw [h]
  omega

theorem encodeChar_inside (c : Char) (h : ¬ Ascii (encodeChar c)) : Inside (encodeChar c) 1 := by
  unfold encodeChar at h ⊢
  simp only at h ⊢
  split at h
  · next hc =>
    refine absurd ?_ h
    intro x hx
    simp only [List.mem_singleton] at hx
    subst hx
    have h : (UInt8.ofNat c.toNat).toNat = c.toNat % 256 := by simp [UInt8.toNat_ofNat']
    rw [h]
    omega
  · next hc =>
    rw [if_neg hc]
    split
    · exact ⟨_, rfl, ofNat_inside _⟩
    · split
      · exact ⟨_, rfl, ofNat_inside _⟩
      · exact ⟨_, rfl, ofNat_inside _⟩

theorem inside_of_not_ascii (s : Str) (h : ¬ Ascii (utf8Encode s)) : ∃ m, Inside (utf8Encode s) m := by
  induction s with
  | nil => exact absurd (by intro x hx; simp [utf8Encode] at hx) h
  | cons c s ih =>
    have he : utf8Encode (c :: s) = encodeChar c ++ utf8Encode s := by simp [utf8Encode]
    rw [he] at h ⊢
    by_cases hc : Ascii (encodeChar c)
    · obtain ⟨m, x, hx, hx'⟩ := ih fun ha => h fun y hy => (List.mem_append.mp hy).elim (hc y) (ha y)
      exact ⟨(encodeChar c).length + m, x, by rw [List.getElem?_append_right (by omega)]; simpa using hx, hx'⟩
    · obtain ⟨x, hx, hx'⟩ := encodeChar_inside c hc
      exact ⟨1, x, by rw [List.getElem?_append_left (List.getElem?_eq_some_iff.mp hx).1]; exact hx, hx'⟩

/-- The last byte of a run of continuation bytes. -/
theorem last_inside {b : Bytes} {m : Nat} (h : Inside b m) : ∃ m, Inside b m ∧ ¬ Inside b (m + 1) := by
  have hlt : ∀ m, Inside b m → m < b.length := fun m ⟨x, hx, _⟩ => (List.getElem?_eq_some_iff.mp hx).1
  by_contra hc
  push Not at hc
  have : ∀ n, Inside b (m + n) := by
    intro n
    induction n with
    | zero => exact h
    | succ n ih => exact hc _ ih
  have := hlt _ (this b.length)
  omega

/-- Cutting a text never panics, at no width, exactly if the text is ASCII – if all its characters show something. -/
theorem C45_safe_iff (vis : Bytes → Nat) (hm : VisMono vis) (s : Str) (hs : AllShow vis (utf8Encode s)) :
    (∀ width, prefixWithWidth vis (utf8Encode s) width ≠ .panic) ↔ Ascii (utf8Encode s) := by
  constructor
  · intro h
    by_contra hna
    obtain ⟨m, h1⟩ := inside_of_not_ascii s hna
    obtain ⟨m, h1, h2⟩ := last_inside h1
    have hlt : m < (utf8Encode s).length := by
      obtain ⟨x, hx, -⟩ := h1
      exact (List.getElem?_eq_some_iff.mp hx).1
    exact h _ (C45_panics vis hm _ m h1 (hs m hlt h2))
  · intro ha width
    obtain ⟨p, hp, -⟩ := C45_truncation_ascii vis hm _ ha width
    rw [hp]
    exact fun h => by cases h

/-- Whatever the name of the target, the divider has the name in full and as many dashes as fit, or is the name cut to the
width, or there is a panic. -/
theorem C45_divider (vis : Bytes → Nat) (hm : VisMono vis) (target : Bytes) (width : Nat) :
    (target.length + 1 < width ∧ ∃ d, dividerWithWidth vis target width = .ok d ∧ d.length = width ∧
      ∃ n, d = target ++ 32 :: List.replicate n 45) ∨
    (width ≤ target.length + 1 ∧ (dividerWithWidth vis target width = .panic ∨
      ∃ d, dividerWithWidth vis target width = .ok d ∧ ShortestShowing vis (target ++ [32]) width d)) := by
  unfold dividerWithWidth
  simp only [List.length_append, List.length_singleton]
  by_cases h : target.length + 1 ≥ width
  · rw [if_pos h]
    exact .inr ⟨h, C45_truncation vis hm _ width⟩
  · rw [if_neg h]
    refine .inl ⟨by omega, _, rfl, ?_, width - (target.length + 1), by simp⟩
    simp only [List.length_append, List.length_singleton, List.length_replicate]
    omega

/-! ## Cases -/

theorem visMono_length : VisMono List.length := fun a b => by simp

/-- `éaa` (bytes C3 A9 61 61), all bytes counted: cut to 2 it panics, cut to 4 it does not. -/
example : AllShow List.length (utf8Encode c%"éaa") ∧ Inside (utf8Encode c%"éaa") 1 ∧
    prefixWithWidth List.length (utf8Encode c%"éaa") 2 = .panic ∧
    prefixWithWidth List.length (utf8Encode c%"éaa") 4 = .ok (utf8Encode c%"éaa") := by
  have he : utf8Encode c%"éaa" = [0xC3, 0xA9, 0x61, 0x61] := by decide +kernel
  rw [he]
  refine ⟨?_, ⟨0xA9, rfl, by decide, by decide⟩,
    C45_panics _ visMono_length [0xC3, 0xA9, 0x61, 0x61] 1 ⟨0xA9, rfl, by decide, by decide⟩ (by decide), ?_⟩
  · intro m hm _
    simp only [List.length_take]
    omega
  · simp [prefixWithWidth, widthSearch, sliceTo, isBoundary]

/-- Three targets, two cpus, two targets failed: too few are left. -/
example : TooFewLeft ⟨[c%"a", c%"b", c%"c"], 2, true, false, List.length⟩
    [.start 0 0 true, .start 1 1 true, .poll, .ended 0 .failed, .ended 1 .failed, .start 2 2 true] := by
  refine ⟨by decide, by decide⟩

end TF
