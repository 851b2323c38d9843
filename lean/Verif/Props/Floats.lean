import Verif.Spec.Floats
import Verif.Props.Auto
import Mathlib.Tactic.Common

/-!
# C20 for floating-point numbers
-/

namespace TF

open Spec

theorem bitLen_lt (n : Nat) : n < 2 ^ bitLen n := by
  unfold bitLen
  split
  · subst n; simp
  · rename_i h
    exact Nat.lt_log2_self

theorem le_of_bitLen {n j : Nat} (h : j < bitLen n) : 2 ^ j ≤ n := by
  unfold bitLen at h
  split at h
  · omega
  · rename_i hn
    exact Nat.le_trans (Nat.pow_le_pow_right (by decide) (Nat.lt_succ_iff.mp h)) (Nat.log2_self_le hn)

theorem Spec.Digits.split {p k : Nat} (hp : 0 < p) (j : Nat) (h : Digits p k) : (∃ c, k = c * 2 ^ j) ∨
    (0 < j ∧ k < 2 ^ (p - 1) * 2 ^ j) := by
  obtain ⟨m, i, hm, rfl⟩ := h
  by_cases hij : j ≤ i
  · exact .inl ⟨m * 2 ^ (i - j), by rw [Nat.mul_assoc, ← Nat.pow_add, Nat.sub_add_cancel hij]⟩
  · refine .inr ⟨by omega, ?_⟩
    have h1 : m * 2 ^ i < 2 ^ p * 2 ^ i := Nat.mul_lt_mul_of_pos_right hm (Nat.pow_pos (by decide))
    have h2 : 2 ^ p * 2 ^ i ≤ 2 ^ (p - 1) * 2 ^ j := by
      rw [← Nat.pow_add, ← Nat.pow_add]
      exact Nat.pow_le_pow_right (by decide) (by omega)
    omega

/-- The distances of multiples of the unit. -/
theorem gap_mul (q r u c : Nat) (hr : r < u) :
    (c ≤ q → r ≤ gap (u * q + r) (c * u) ∧ (gap (u * q + r) (c * u) = r → c = q)) ∧
    (q < c → u - r ≤ gap (u * q + r) (c * u) ∧ (gap (u * q + r) (c * u) = u - r → c = q + 1)) := by
  constructor
  · intro h
    obtain ⟨e, rfl⟩ := Nat.exists_eq_add_of_le h
    have : u * (c + e) + r = c * u + (e * u + r) := by rw [Nat.mul_add, Nat.mul_comm u c, Nat.mul_comm u e]; omega
    rw [gap, this]
    refine ⟨by omega, fun h => ?_⟩
    have h0 : e * u = 0 := by omega
    rcases Nat.mul_eq_zero.mp h0 with h | h <;> omega
  · intro h
    obtain ⟨e, rfl⟩ := Nat.exists_eq_add_of_lt h
    have : (q + e + 1) * u = u * q + (e * u + u) := by rw [Nat.add_mul, Nat.add_mul, Nat.mul_comm u q]; omega
    rw [gap, this]
    refine ⟨by omega, fun h => ?_⟩
    have h0 : e * u = 0 := by omega
    rcases Nat.mul_eq_zero.mp h0 with h | h <;> omega

theorem roundMag_rounded {p n d : Nat} (hp : 0 < p) (hd : 0 < d) : Rounded p n d (roundMag p n d) := by
  unfold roundMag
  simp only
  generalize hj : bitLen (n / d) - p = j
  generalize hu : d * 2 ^ j = u
  have hu0 : 0 < u := hu ▸ Nat.mul_pos hd (Nat.pow_pos (by decide))
  have hn : n = u * (n / u) + n % u := (Nat.div_add_mod n u).symm
  have hr : n % u < u := Nat.mod_lt _ hu0
  generalize hq : n / u = q at *
  generalize hrr : n % u = r at *
  have hmul : ∀ c, c * 2 ^ j * d = c * u := fun c => by rw [Nat.mul_assoc, Nat.mul_comm (2 ^ j), hu]
  -- the number of digits
  have hqp : q < 2 ^ p := by
    rw [← hq, Nat.div_lt_iff_lt_mul hu0]
    have h1 := bitLen_lt (n / d)
    have h2 : 2 ^ bitLen (n / d) ≤ 2 ^ p * 2 ^ j := by
      rw [← Nat.pow_add]
      exact Nat.pow_le_pow_right (by decide) (by omega)
    have h3 : n < 2 ^ p * 2 ^ j * d := (Nat.div_lt_iff_lt_mul hd).mp (Nat.lt_of_lt_of_le h1 h2)
    rwa [hmul] at h3
  have hlow : 0 < j → 2 ^ (p - 1) * u ≤ n := by
    intro h0
    have h1 := le_of_bitLen (n := n / d) (j := p + j - 1) (by omega)
    rw [Nat.le_div_iff_mul_le hd, show p + j - 1 = (p - 1) + j by omega, Nat.pow_add, hmul] at h1
    exact h1
  -- other numbers
  have other : ∀ k', Digits p k' → (r ≤ gap n (k' * d) ∧ (gap n (k' * d) = r → k' = q * 2 ^ j)) ∨
      (u - r ≤ gap n (k' * d) ∧ (gap n (k' * d) = u - r → k' = (q + 1) * 2 ^ j)) := by
    intro k' hk'
    rcases hk'.split hp j with ⟨c, rfl⟩ | ⟨h0, hlt⟩
    · rw [hmul, hn]
      rcases Nat.lt_or_ge q c with h | h
      · obtain ⟨h1, h2⟩ := (gap_mul q r u c hr).2 h
        exact .inr ⟨h1, fun h => by rw [h2 h]⟩
      · obtain ⟨h1, h2⟩ := (gap_mul q r u c hr).1 h
        exact .inl ⟨h1, fun h => by rw [h2 h]⟩
    · have h1 := hlow h0
      have h2 : k' * d < 2 ^ (p - 1) * u := by
        rw [← hmul]
        exact Nat.mul_lt_mul_of_pos_right hlt hd
      have h3 : 2 ^ (p - 1) ≤ q := by rw [← hq, Nat.le_div_iff_mul_le hu0]; exact h1
      have h4 : 2 ^ (p - 1) * u ≤ u * q := by rw [Nat.mul_comm u]; exact Nat.mul_le_mul_right _ h3
      refine .inl ⟨?_, fun h => ?_⟩
      · unfold gap; omega
      · unfold gap at h; omega
  have gq : gap n (q * 2 ^ j * d) = r := by rw [hmul, gap, Nat.mul_comm q, hn]; omega
  have gq1 : gap n ((q + 1) * 2 ^ j * d) = u - r := by
    rw [hmul, gap, Nat.add_mul, Nat.mul_comm q, hn]; omega
  have up : Digits p ((q + 1) * 2 ^ j) := by
    by_cases h : q + 1 < 2 ^ p
    · exact ⟨q + 1, j, h, rfl⟩
    · have : q + 1 = 2 ^ p := by omega
      refine ⟨2 ^ (p - 1), j + 1, Nat.pow_lt_pow_right (by decide) (by omega), ?_⟩
      rw [this, Nat.pow_succ, ← Nat.pow_add, Nat.mul_comm _ 2, ← Nat.mul_assoc, ← Nat.pow_succ, ← Nat.pow_add]
      congr 2
      omega
  have dist : gap (q * 2 ^ j) ((q + 1) * 2 ^ j) = 2 ^ j := by rw [gap, Nat.add_mul]; omega
  have comm : ∀ a b, gap a b = gap b a := fun a b => by unfold gap; omega
  split
  · rename_i hc
    refine ⟨up, fun k' hk' => ?_, fun k' hk' hne he => ?_⟩
    · rw [gq1]
      rcases other k' hk' with ⟨h, -⟩ | ⟨h, -⟩ <;> omega
    · rw [gq1] at he
      rcases other k' hk' with ⟨h1, h2⟩ | ⟨-, h2⟩
      · rcases hc with hc | hc
        · omega
        · have hk : k' = q * 2 ^ j := h2 (by omega)
          subst hk
          rw [comm, dist]
          obtain ⟨e, he⟩ : 2 ∣ q + 1 := by omega
          exact ⟨e, by rw [he]; exact Nat.mul_right_comm 2 e (2 ^ j)⟩
      · exact absurd (h2 he) hne
  · rename_i hc
    refine ⟨⟨q, j, hqp, rfl⟩, fun k' hk' => ?_, fun k' hk' hne he => ?_⟩
    · rw [gq]
      rcases other k' hk' with ⟨h, -⟩ | ⟨h, -⟩ <;> omega
    · rw [gq] at he
      rcases other k' hk' with ⟨-, h2⟩ | ⟨h1, h2⟩
      · exact absurd (h2 he) hne
      · have hk : k' = (q + 1) * 2 ^ j := h2 (by omega)
        subst hk
        rw [dist]
        obtain ⟨e, he⟩ : 2 ∣ q := by omega
        exact ⟨e, by rw [he]; exact Nat.mul_right_comm 2 e (2 ^ j)⟩

/-- **C20.** Results are rounded as the standard says. -/
theorem C20_rounding {p n d : Nat} (hp : 0 < p) (hd : 0 < d) (k : Nat) : Rounded p n d k ↔ roundMag p n d = k := by
  constructor
  · intro h
    have h' := roundMag_rounded (n := n) hp hd
    by_contra hne
    have e : gap n (k * d) = gap n (roundMag p n d * d) := Nat.le_antisymm (h.nearest _ h'.digits) (h'.nearest _ h.digits)
    have h1 := h.even _ h'.digits hne e.symm
    have h2 := h'.even _ h.digits (Ne.symm hne) e
    generalize roundMag p n d = l at *
    have hg : gap l k = gap k l := by unfold gap; omega
    rw [hg] at h2
    have h3 : 2 * gap k l ∣ gap k l := by
      rw [gap]
      rcases Nat.le_total k l with hl | hl
      · rw [Nat.sub_eq_zero_of_le hl, Nat.zero_add]
        have : 2 * gap k l = 2 * (l - k) := by unfold gap; omega
        rw [this] at h1 h2
        exact Nat.dvd_sub h2 h1
      · rw [Nat.sub_eq_zero_of_le hl, Nat.add_zero]
        have : 2 * gap k l = 2 * (k - l) := by unfold gap; omega
        rw [this] at h1 h2
        exact Nat.dvd_sub h1 h2
    have h4 : 0 < gap k l := by unfold gap; omega
    have := Nat.le_of_dvd h4 h3
    omega
  · rintro rfl
    exact roundMag_rounded hp hd

theorem round_exact {p k d : Nat} (hp : 0 < p) (hd : 0 < d) (h : Digits p k) : roundMag p (k * d) d = k := by
  rw [← C20_rounding hp hd]
  refine ⟨h, fun k' _ => by unfold gap; omega, fun k' _ hne e => absurd ?_ hne⟩
  have : k' * d = k * d := by unfold gap at e; omega
  exact Nat.eq_of_mul_eq_mul_right hd this

theorem round_exact_one {p k : Nat} (hp : 0 < p) (h : Digits p k) : roundMag p k 1 = k := by
  have := round_exact (d := 1) hp (by decide) h
  rwa [Nat.mul_one] at this

/-- What is near the largest number. -/
theorem digits_near {p J e k : Nat} (hp : 2 ≤ p) (he : e < 2 ^ J) (h : Digits p k) (hk : k ≤ (2 ^ p - 1) * 2 ^ J)
    (hn : (2 ^ p - 1) * 2 ^ J ≤ k + e) : k = (2 ^ p - 1) * 2 ^ J := by
  have hJ : 0 < 2 ^ J := Nat.pow_pos (by decide)
  have h2 : 2 ^ p = 2 * 2 ^ (p - 1) := by rw [← Nat.pow_succ']; congr 1; omega
  have h3 : 2 ≤ 2 ^ (p - 1) := by
    calc 2 = 2 ^ 1 := rfl
      _ ≤ _ := Nat.pow_le_pow_right (by decide) (by omega)
  rcases h.split (by omega) J with ⟨c, rfl⟩ | ⟨-, hlt⟩
  · have hc : c ≤ 2 ^ p - 1 := Nat.le_of_mul_le_mul_right hk hJ
    by_cases hcc : c = 2 ^ p - 1
    · rw [hcc]
    · have : (c + 1) * 2 ^ J ≤ (2 ^ p - 1) * 2 ^ J := Nat.mul_le_mul_right _ (by omega)
      rw [Nat.add_mul] at this
      omega
  · have : (2 ^ (p - 1) + 1) * 2 ^ J ≤ (2 ^ p - 1) * 2 ^ J := Nat.mul_le_mul_right _ (by omega)
    rw [Nat.add_mul] at this
    omega

theorem fltTop_largest {p emax k : Nat} (hp : 2 ≤ p) (h : Digits p k) (hk : k < 2 ^ p * 2 ^ (2 * emax - 1)) :
    k ≤ fltTop p emax := by
  unfold fltTop
  have hJ : 0 < 2 ^ (2 * emax - 1) := Nat.pow_pos (by decide)
  rcases h.split (by omega) (2 * emax - 1) with ⟨c, rfl⟩ | ⟨-, hlt⟩
  · have : c < 2 ^ p := Nat.lt_of_mul_lt_mul_right hk
    exact Nat.mul_le_mul_right _ (by omega)
  · refine Nat.le_trans (Nat.le_of_lt hlt) (Nat.mul_le_mul_right _ ?_)
    have h2 : 2 ^ p = 2 * 2 ^ (p - 1) := by rw [← Nat.pow_succ']; congr 1; omega
    have := Nat.pow_pos (n := p - 1) (show 0 < 2 by decide)
    omega

/-- The format is as modelled. -/
theorem format_unique {p emax one max : Nat} (hp : 2 ≤ p) (he : p < emax) (h : IsFormat p emax one max) :
    fltOne p emax = one ∧ fltTop p emax = max := by
  have h1 : fltOne p emax = one := by
    have := h.one_eq
    rw [← Nat.pow_add, show emax + p = (emax + p - 2) + 2 by omega, Nat.pow_add] at this
    unfold fltOne
    omega
  refine ⟨h1, ?_⟩
  have hb : one * 2 ^ (emax + 1) = 2 ^ p * 2 ^ (2 * emax - 1) := by
    rw [← h1, fltOne, ← Nat.pow_add, ← Nat.pow_add]
    congr 1
    omega
  have hlt : fltTop p emax < 2 ^ p * 2 ^ (2 * emax - 1) := by
    have : 2 ^ p - 1 < 2 ^ p := Nat.sub_lt (Nat.pow_pos (by decide)) (by decide)
    exact Nat.mul_lt_mul_of_pos_right this (Nat.pow_pos (by decide))
  have hd : Digits p (fltTop p emax) := ⟨2 ^ p - 1, _, Nat.sub_lt (Nat.pow_pos (by decide)) (by decide), rfl⟩
  have hle := h.largest _ hd (by rw [hb]; exact hlt)
  have hge := fltTop_largest hp h.digits (hb ▸ h.below)
  omega

/-- **C20.** For floating-point numbers, of any format whose exponents reach further than its digits: the extremes, zero and one. The
neighbours of the extremes are rounded to the extremes. -/
theorem C20_floats {p emax one max : Nat} (hp : 2 ≤ p) (he : p < emax) (h : IsFormat p emax one max) :
    auto (floatCaps p emax) = .ok [.fin true max, .fin false max, .fin false 0, .fin false max, .fin false 0, .fin false one,
      .fin true max] := by
  obtain ⟨h1, h2⟩ := format_unique hp he h
  subst h1 h2
  have hp0 : 0 < p := by omega
  have hO : 0 < fltOne p emax := Nat.pow_pos (by decide)
  have h2p : 2 ≤ 2 ^ p := by
    calc 2 = 2 ^ 1 := rfl
      _ ≤ _ := Nat.pow_le_pow_right (by decide) (by omega)
  have dO : Digits p (fltOne p emax) := ⟨1, _, by omega, (Nat.one_mul _).symm⟩
  have dO2 : Digits p (fltOne p emax + fltOne p emax) :=
    ⟨1, emax + p - 2 + 1, by omega, by rw [fltOne, Nat.one_mul, Nat.pow_succ]; omega⟩
  have dT : Digits p (fltTop p emax) := ⟨2 ^ p - 1, _, by omega, rfl⟩
  have hOJ : fltOne p emax + fltOne p emax < 2 ^ (2 * emax - 1) := by
    have : fltOne p emax + fltOne p emax = 2 ^ (emax + p - 1) := by
      rw [fltOne, show emax + p - 1 = (emax + p - 2) + 1 by omega, Nat.pow_succ]
      omega
    rw [this]
    exact Nat.pow_lt_pow_right (by decide) (by omega)
  have hJT : 2 ^ (2 * emax - 1) ≤ fltTop p emax := by
    unfold fltTop
    exact Nat.le_mul_of_pos_left _ (by omega)
  -- one and one
  have two : (Flt.fin false (fltOne p emax)).add p emax (.fin false (fltOne p emax)) =
      .fin false (fltOne p emax + fltOne p emax) := by
    rw [Flt.add, if_pos rfl, mkFlt, round_exact_one hp0 dO2]
    exact if_neg (by omega)
  -- halves
  have half : ∃ t, fltTop p emax = 2 * t ∧ ∀ s, (Flt.fin s (fltTop p emax)).div p emax
      (.fin false (fltOne p emax + fltOne p emax)) = .fin s t := by
    refine ⟨(2 ^ p - 1) * 2 ^ (2 * emax - 2), ?_, fun s => ?_⟩
    · rw [fltTop, show 2 * emax - 1 = (2 * emax - 2) + 1 by omega, Nat.pow_succ]
      simp only [Nat.mul_comm, Nat.mul_left_comm, Nat.mul_assoc]
    · have e : fltTop p emax * fltOne p emax = (2 ^ p - 1) * 2 ^ (2 * emax - 2) * (fltOne p emax + fltOne p emax) := by
        rw [fltTop, show 2 * emax - 1 = (2 * emax - 2) + 1 by omega, Nat.pow_succ, ← Nat.two_mul]
        simp only [Nat.mul_comm, Nat.mul_left_comm, Nat.mul_assoc]
      rw [Flt.div, if_neg (by omega), mkFlt, e, round_exact hp0 (by omega) ⟨2 ^ p - 1, _, by omega, rfl⟩, Bool.bne_false]
      refine if_neg (Nat.not_lt.mpr ?_)
      unfold fltTop
      exact Nat.mul_le_mul_left _ (Nat.pow_le_pow_right (by decide) (by omega))
  obtain ⟨t, -, half⟩ := half
  have sum0 : (Flt.fin true t).add p emax (.fin false t) = .fin false 0 := by
    rw [Flt.add, if_neg (by decide), if_pos rfl]
  have high : (Flt.fin false 0).add p emax (.fin false (fltOne p emax)) = .fin false (fltOne p emax) := by
    rw [Flt.add, if_pos rfl, mkFlt, Nat.zero_add, round_exact_one hp0 dO]
    exact if_neg (by omega)
  -- next to the extremes
  have near : roundMag p (fltTop p emax - fltOne p emax) 1 = fltTop p emax := by
    rw [← C20_rounding hp0 (by decide)]
    have key : ∀ k, Digits p k → gap (fltTop p emax - fltOne p emax) (k * 1) ≤ fltOne p emax → k = fltTop p emax := by
      intro k hk hg
      rw [gap] at hg
      have hk1 : k ≤ fltTop p emax := by omega
      have hk2 : fltTop p emax ≤ k + (fltOne p emax + fltOne p emax) := by omega
      exact digits_near hp hOJ hk hk1 hk2
    have self : gap (fltTop p emax - fltOne p emax) (fltTop p emax * 1) = fltOne p emax := by unfold gap; omega
    refine ⟨dT, fun k hk => ?_, fun k hk hne e => absurd (key k hk (by omega)) hne⟩
    by_contra hlt
    have := key k hk (by omega)
    subst this
    omega
  have sub : (Flt.fin false (fltTop p emax)).sub p emax (.fin false (fltOne p emax)) = .fin false (fltTop p emax) := by
    rw [Flt.sub, Flt.neg, Flt.add, if_neg (by decide), if_neg (by omega), if_pos (by omega), mkFlt, near]
    exact if_neg (by omega)
  have add : (Flt.fin true (fltTop p emax)).add p emax (.fin false (fltOne p emax)) = .fin true (fltTop p emax) := by
    rw [Flt.add, if_neg (by decide), if_neg (by omega), if_pos (by omega), mkFlt, near]
    exact if_neg (by omega)
  simp only [auto, autoImpl, maxValueSubOne, minValueAddOne, middle, TF.two, low, floatCaps, Option.map_some, Option.getD_some,
    Out.ok_bind, two, half, sum0, high, sub, add, List.cons_append, List.nil_append]

/-- The two formats. -/
theorem format_is {p emax : Nat} (hp : 2 ≤ p) (he : p < emax) : IsFormat p emax (fltOne p emax) (fltTop p emax) := by
  have hb : fltOne p emax * 2 ^ (emax + 1) = 2 ^ p * 2 ^ (2 * emax - 1) := by
    rw [fltOne, ← Nat.pow_add, ← Nat.pow_add]
    congr 1
    omega
  refine ⟨?_, ⟨2 ^ p - 1, _, Nat.sub_lt (Nat.pow_pos (by decide)) (by decide), rfl⟩, ?_, fun k hk hlt => ?_⟩
  · rw [fltOne, ← Nat.pow_add, show emax + p = (emax + p - 2) + 2 by omega, Nat.pow_add]
    simp only [Nat.add_sub_cancel]
    omega
  · rw [hb]
    have : 2 ^ p - 1 < 2 ^ p := Nat.sub_lt (Nat.pow_pos (by decide)) (by decide)
    exact Nat.mul_lt_mul_of_pos_right this (Nat.pow_pos (by decide))
  · exact fltTop_largest hp hk (hb ▸ hlt)

/-- **C20.** `f32` and `f64`: seven values, of which four are different. -/
theorem C20_f32_f64 (caps : Caps Flt) (h : caps = f32Caps ∨ caps = f64Caps) :
    ∃ max one, 0 < one ∧ one < max ∧ auto caps = .ok [.fin true max, .fin false max, .fin false 0, .fin false max, .fin false 0,
      .fin false one, .fin true max] := by
  rcases h with rfl | rfl
  · exact ⟨_, _, by decide +kernel, by decide +kernel, C20_floats (by decide) (by decide) (format_is (p := 24) (emax := 127) (by decide) (by decide))⟩
  · exact ⟨_, _, by decide +kernel, by decide +kernel, C20_floats (by decide) (by decide) (format_is (p := 53) (emax := 1023) (by decide) (by decide))⟩

/-- A format with 3 digits, exponents up to 4: `max` is `28`, in units of `1/32`. -/
example : IsFormat 3 4 32 896 ∧ auto (floatCaps 3 4) = .ok [.fin true 896, .fin false 896, .fin false 0, .fin false 896, .fin false 0,
    .fin false 32, .fin true 896] :=
  ⟨format_is (p := 3) (emax := 4) (by decide) (by decide), by decide +kernel⟩

/-- Rounding to three digits: 9 and 11 are as near to 8 as to 10 and to 10 as to 12; the even ones are 8 and 12. -/
example : roundMag 3 9 1 = 8 ∧ roundMag 3 11 1 = 12 ∧ roundMag 3 15 1 = 16 ∧ roundMag 3 7 2 = 4 ∧ roundMag 3 5 2 = 2 := by decide +kernel

/-- The condition on the format is needed: with as many digits as exponents, the neighbour of the largest number is another one. -/
example : auto (floatCaps 3 3) = .ok [.fin true 224, .fin false 224, .fin false 0, .fin false 192, .fin false 0, .fin false 16,
    .fin true 192] := by decide +kernel

end TF
