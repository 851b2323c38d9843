import Verif.Rust.Lossy
import Verif.Spec.Lossy
import Verif.Lemmas.Utf8

/-! Characters as sequences of bytes. -/

namespace TF

open Spec

/-- The shapes of characters. -/
theorem encodeChar_shape (c : Char) :
    (∃ a, encodeChar c = [a] ∧ a.toNat < 128) ∨
    (∃ a b, encodeChar c = [a, b] ∧ 0xC2 ≤ a.toNat ∧ a.toNat ≤ 0xDF ∧ isCont b) ∨
    (∃ a b d, encodeChar c = [a, b, d] ∧ 0xE0 ≤ a.toNat ∧ a.toNat ≤ 0xEF ∧ second3 a b ∧ isCont d) ∨
    (∃ a b d e, encodeChar c = [a, b, d, e] ∧ 0xF0 ≤ a.toNat ∧ a.toNat ≤ 0xF4 ∧ second4 a b ∧ isCont d ∧ isCont e) := by
  have hv : c.toNat.isValidChar := c.valid
  unfold Nat.isValidChar at hv
  unfold encodeChar
  simp only
  split
  · next h => exact .inl ⟨_, rfl, by rw [toNat_ofNat_lt (by omega)]; exact h⟩
  split
  · next h1 h2 =>
    refine .inr (.inl ⟨_, _, rfl, ?_, ?_, ?_⟩)
    · rw [toNat_ofNat_lt (by omega)]; omega
    · rw [toNat_ofNat_lt (by omega)]; omega
    · simp only [isCont, Bool.and_eq_true, decide_eq_true_eq]
      rw [toNat_ofNat_lt (by omega)]; omega
  split
  · next h1 h2 h3 =>
    refine .inr (.inr (.inl ⟨_, _, _, rfl, ?_, ?_, ?_, ?_⟩))
    · rw [toNat_ofNat_lt (by omega)]; omega
    · rw [toNat_ofNat_lt (by omega)]; omega
    · simp only [second3, Bool.and_eq_true, Bool.or_eq_true, decide_eq_true_eq, beq_iff_eq]
      rw [toNat_ofNat_lt (by omega), toNat_ofNat_lt (by omega)]; omega
    · simp only [isCont, Bool.and_eq_true, decide_eq_true_eq]
      rw [toNat_ofNat_lt (by omega)]; omega
  · next h1 h2 h3 =>
    refine .inr (.inr (.inr ⟨_, _, _, _, rfl, ?_, ?_, ?_, ?_, ?_⟩))
    · rw [toNat_ofNat_lt (by omega)]; omega
    · rw [toNat_ofNat_lt (by omega)]; omega
    · simp only [second4, Bool.and_eq_true, Bool.or_eq_true, decide_eq_true_eq, beq_iff_eq]
      rw [toNat_ofNat_lt (by omega), toNat_ofNat_lt (by omega)]; omega
    · simp only [isCont, Bool.and_eq_true, decide_eq_true_eq]
      rw [toNat_ofNat_lt (by omega)]; omega
    · simp only [isCont, Bool.and_eq_true, decide_eq_true_eq]
      rw [toNat_ofNat_lt (by omega)]; omega

theorem toNat_ofNat_valid {n : Nat} (h : n.isValidChar) : (Char.ofNat n).toNat = n := by
  simp [Char.ofNat, h, Char.ofNatAux, Char.toNat]

theorem exists_char1 {a : UInt8} (h : a.toNat < 128) : ∃ c, encodeChar c = [a] := by
  refine ⟨Char.ofNat a.toNat, ?_⟩
  have := toNat_ofNat_valid (n := a.toNat) (by left; omega)
  unfold encodeChar
  simp only [this, h, if_true]
  rw [← uint8_eq_ofNat rfl]

theorem exists_char2 {a b : UInt8} (h1 : 0xC2 ≤ a.toNat) (h2 : a.toNat ≤ 0xDF) (h3 : isCont b) :
    ∃ c, encodeChar c = [a, b] := by
  simp only [isCont, Bool.and_eq_true, decide_eq_true_eq] at h3
  refine ⟨Char.ofNat ((a.toNat - 0xC0) * 64 + (b.toNat - 0x80)), ?_⟩
  have := toNat_ofNat_valid (n := (a.toNat - 0xC0) * 64 + (b.toNat - 0x80)) (by left; omega)
  unfold encodeChar
  simp only [this]
  rw [if_neg (by omega), if_pos (by omega), ← uint8_eq_ofNat (b := a) (by omega), ← uint8_eq_ofNat (b := b) (by omega)]

theorem exists_char3 {a b d : UInt8} (h1 : 0xE0 ≤ a.toNat) (h2 : a.toNat ≤ 0xEF) (h3 : second3 a b) (h4 : isCont d) :
    ∃ c, encodeChar c = [a, b, d] := by
  simp only [isCont, Bool.and_eq_true, decide_eq_true_eq] at h4
  simp only [second3, Bool.and_eq_true, Bool.or_eq_true, decide_eq_true_eq, beq_iff_eq] at h3
  refine ⟨Char.ofNat ((a.toNat - 0xE0) * 4096 + (b.toNat - 0x80) * 64 + (d.toNat - 0x80)), ?_⟩
  have := toNat_ofNat_valid (n := (a.toNat - 0xE0) * 4096 + (b.toNat - 0x80) * 64 + (d.toNat - 0x80)) (by
    unfold Nat.isValidChar; omega)
  unfold encodeChar
  simp only [this]
  rw [if_neg (by omega), if_neg (by omega), if_pos (by omega), ← uint8_eq_ofNat (b := a) (by omega),
    ← uint8_eq_ofNat (b := b) (by omega), ← uint8_eq_ofNat (b := d) (by omega)]

theorem exists_char4 {a b d e : UInt8} (h1 : 0xF0 ≤ a.toNat) (h2 : a.toNat ≤ 0xF4) (h3 : second4 a b) (h4 : isCont d)
    (h5 : isCont e) : ∃ c, encodeChar c = [a, b, d, e] := by
  simp only [isCont, Bool.and_eq_true, decide_eq_true_eq] at h4 h5
  simp only [second4, Bool.and_eq_true, Bool.or_eq_true, decide_eq_true_eq, beq_iff_eq] at h3
  refine ⟨Char.ofNat ((a.toNat - 0xF0) * 262144 + (b.toNat - 0x80) * 4096 + (d.toNat - 0x80) * 64 + (e.toNat - 0x80)), ?_⟩
  have := toNat_ofNat_valid
    (n := (a.toNat - 0xF0) * 262144 + (b.toNat - 0x80) * 4096 + (d.toNat - 0x80) * 64 + (e.toNat - 0x80)) (by
    unfold Nat.isValidChar; omega)
  unfold encodeChar
  simp only [this]
  rw [if_neg (by omega), if_neg (by omega), if_neg (by omega), ← uint8_eq_ofNat (b := a) (by omega),
    ← uint8_eq_ofNat (b := b) (by omega), ← uint8_eq_ofNat (b := d) (by omega), ← uint8_eq_ofNat (b := e) (by omega)]

theorem utf8Width_cases (a : UInt8) :
    (0xC2 ≤ a.toNat ∧ a.toNat ≤ 0xDF ∧ utf8Width a = 2) ∨ (0xE0 ≤ a.toNat ∧ a.toNat ≤ 0xEF ∧ utf8Width a = 3) ∨
    (0xF0 ≤ a.toNat ∧ a.toNat ≤ 0xF4 ∧ utf8Width a = 4) ∨
    ((a.toNat < 0xC2 ∨ 0xF4 < a.toNat) ∧ utf8Width a = 0) := by
  have : a.toNat < 256 := a.toNat_lt
  unfold utf8Width
  simp only [Bool.and_eq_true, decide_eq_true_eq]
  by_cases h1 : 0xC2 ≤ a.toNat ∧ a.toNat ≤ 0xDF
  · exact .inl ⟨h1.1, h1.2, if_pos h1⟩
  rw [if_neg h1]
  by_cases h2 : 0xE0 ≤ a.toNat ∧ a.toNat ≤ 0xEF
  · exact .inr (.inl ⟨h2.1, h2.2, if_pos h2⟩)
  rw [if_neg h2]
  by_cases h3 : 0xF0 ≤ a.toNat ∧ a.toNat ≤ 0xF4
  · exact .inr (.inr (.inl ⟨h3.1, h3.2, if_pos h3⟩))
  rw [if_neg h3]
  exact .inr (.inr (.inr ⟨by omega, rfl⟩))

/-- Characters by their first byte. -/
theorem encodeChar_first {c : Char} {a : UInt8} {t : Bytes} (h : encodeChar c = a :: t) :
    (a.toNat < 128 ∧ t = []) ∨
    (128 ≤ a.toNat ∧ utf8Width a = 2 ∧ ∃ b, t = [b] ∧ isCont b) ∨
    (128 ≤ a.toNat ∧ utf8Width a = 3 ∧ ∃ b d, t = [b, d] ∧ second3 a b ∧ isCont d) ∨
    (128 ≤ a.toNat ∧ utf8Width a = 4 ∧ ∃ b d e, t = [b, d, e] ∧ second4 a b ∧ isCont d ∧ isCont e) := by
  have hw := utf8Width_cases a
  rcases encodeChar_shape c with ⟨a', h1, h2⟩ | ⟨a', b, h1, h2, h3, h4⟩ | ⟨a', b, d, h1, h2, h3, h4, h5⟩ |
    ⟨a', b, d, e, h1, h2, h3, h4, h5, h6⟩ <;> rw [h] at h1 <;> cases h1
  · exact .inl ⟨h2, rfl⟩
  · refine .inr (.inl ⟨by omega, by omega, b, rfl, h4⟩)
  · refine .inr (.inr (.inl ⟨by omega, by omega, b, d, rfl, h4, h5⟩))
  · refine .inr (.inr (.inr ⟨by omega, by omega, b, d, e, rfl, h4, h5, h6⟩))

theorem safeGet_prefix {q r : Bytes} (h : q <+: r) {i : Nat} (hi : i < q.length) : safeGet r i = safeGet q i := by
  obtain ⟨t, rfl⟩ := h
  unfold safeGet
  rw [List.getElem?_append_left hi]

theorem isCont_zero : isCont 0 = false := by decide
theorem second3_zero (a : UInt8) : second3 a 0 = false := by simp [second3]
theorem second4_zero (a : UInt8) : second4 a 0 = false := by simp [second4]

theorem safeGet_some {r : Bytes} {i : Nat} (h : safeGet r i ≠ 0) : r[i]? = some (safeGet r i) := by
  unfold safeGet at h ⊢
  cases hr : r[i]? with
  | none => rw [hr] at h; exact absurd rfl h
  | some x => rfl

theorem cont_ne {b : UInt8} (h : isCont b = true) : b ≠ 0 := fun he => by rw [he, isCont_zero] at h; cases h
theorem second3_ne {a b : UInt8} (h : second3 a b = true) : b ≠ 0 := fun he => by rw [he, second3_zero] at h; cases h
theorem second4_ne {a b : UInt8} (h : second4 a b = true) : b ≠ 0 := fun he => by rw [he, second4_zero] at h; cases h

theorem front1 {r : Bytes} (h0 : safeGet r 0 ≠ 0) : ∃ r', r = safeGet r 0 :: r' := by
  cases r with
  | nil => exact absurd rfl h0
  | cons x r => exact ⟨r, rfl⟩

theorem front2 {r : Bytes} (h0 : safeGet r 0 ≠ 0) (h1 : safeGet r 1 ≠ 0) : ∃ r', r = safeGet r 0 :: safeGet r 1 :: r' := by
  obtain ⟨r', hr⟩ := front1 h0
  rw [hr] at h1 ⊢
  obtain ⟨r'', h⟩ := front1 (r := r') h1
  exact ⟨r'', congrArg _ h⟩

theorem front3 {r : Bytes} (h0 : safeGet r 0 ≠ 0) (h1 : safeGet r 1 ≠ 0) (h2 : safeGet r 2 ≠ 0) :
    ∃ r', r = safeGet r 0 :: safeGet r 1 :: safeGet r 2 :: r' := by
  obtain ⟨r', hr⟩ := front1 h0
  rw [hr] at h1 h2 ⊢
  obtain ⟨r'', h⟩ := front2 (r := r') h1 h2
  exact ⟨r'', congrArg _ h⟩

/-- A valid step takes a character. -/
theorem nextLen_true {a : UInt8} {r : Bytes} {k : Nat} (h : nextLen a r = (k, true)) :
    ∃ c, (a :: r).take k = encodeChar c ∧ a :: r = encodeChar c ++ (a :: r).drop k := by
  suffices ∃ c t, encodeChar c ++ t = a :: r ∧ (encodeChar c).length = k by
    obtain ⟨c, t, h1, h2⟩ := this
    refine ⟨c, ?_, ?_⟩
    · rw [← h1, ← h2, List.take_left']; rfl
    · rw [← h1, ← h2, List.drop_left']; rfl
  unfold nextLen at h
  split at h
  · next ha =>
    cases h
    obtain ⟨c, hc⟩ := exists_char1 ha
    exact ⟨c, r, by rw [hc]; rfl, by rw [hc]; rfl⟩
  · rcases utf8Width_cases a with ⟨h1, h2, hw⟩ | ⟨h1, h2, hw⟩ | ⟨h1, h2, hw⟩ | ⟨-, hw⟩ <;> rw [hw] at h <;> simp only at h
    · split at h
      · next g =>
        cases h
        obtain ⟨c, hc⟩ := exists_char2 h1 h2 g
        obtain ⟨r', hr⟩ := front1 (cont_ne g)
        exact ⟨c, r', by rw [hc]; simp only [List.cons_append, List.nil_append]; rw [← hr], by rw [hc]; rfl⟩
      · cases h
    · split at h
      · next g =>
        split at h
        · next g' =>
          cases h
          obtain ⟨c, hc⟩ := exists_char3 h1 h2 g g'
          obtain ⟨r', hr⟩ := front2 (second3_ne g) (cont_ne g')
          exact ⟨c, r', by rw [hc]; simp only [List.cons_append, List.nil_append]; rw [← hr], by rw [hc]; rfl⟩
        · cases h
      · cases h
    · split at h
      · next g =>
        split at h
        · next g' =>
          split at h
          · next g'' =>
            cases h
            obtain ⟨c, hc⟩ := exists_char4 h1 h2 g g' g''
            obtain ⟨r', hr⟩ := front3 (second4_ne g) (cont_ne g') (cont_ne g'')
            exact ⟨c, r', by rw [hc]; simp only [List.cons_append, List.nil_append]; rw [← hr], by rw [hc]; rfl⟩
          · cases h
        · cases h
      · cases h
    · cases h

/-- How many bytes at the front agree with a character: none is complete, and not more than `k` agree. -/
theorem nextLen_false_bound {a : UInt8} {r : Bytes} {k : Nat} (h : nextLen a r = (k, false)) {c : Char} {t q : Bytes}
    (hc : encodeChar c = a :: t) (hq : q <+: r) (hqt : q <+: t) : q.length < k ∧ q ≠ t := by
  have hg : ∀ i, i < q.length → safeGet r i = safeGet t i := fun i hi =>
    (safeGet_prefix hq hi).trans (safeGet_prefix hqt hi).symm
  have hl := hqt.length_le
  have hqe : q = t → q.length = t.length := fun h => by rw [h]
  rcases encodeChar_first hc with ⟨ha, rfl⟩ | ⟨ha, hw, b, rfl, g1⟩ | ⟨ha, hw, b, d, rfl, g1, g2⟩ |
    ⟨ha, hw, b, d, e, rfl, g1, g2, g3⟩
  · rw [nextLen, if_pos ha] at h; cases h
  all_goals
    rw [nextLen, if_neg (by omega), hw] at h
    simp only [List.length_cons, List.length_nil] at hl hqe
    simp only at h
  · split at h
    · cases h
    · next g =>
      cases h
      have : ¬ 0 < q.length := fun hi => g (by rw [hg 0 hi]; exact g1)
      exact ⟨by omega, fun h => by have := hqe h; omega⟩
  · split at h
    · split at h
      · cases h
      · next g =>
        cases h
        have : ¬ 1 < q.length := fun hi => g (by rw [hg 1 hi]; exact g2)
        exact ⟨by omega, fun h => by have := hqe h; omega⟩
    · next g =>
      cases h
      have : ¬ 0 < q.length := fun hi => g (by rw [hg 0 hi]; exact g1)
      exact ⟨by omega, fun h => by have := hqe h; omega⟩
  · split at h
    · split at h
      · split at h
        · cases h
        · next g =>
          cases h
          have : ¬ 2 < q.length := fun hi => g (by rw [hg 2 hi]; exact g3)
          exact ⟨by omega, fun h => by have := hqe h; omega⟩
      · next g =>
        cases h
        have : ¬ 1 < q.length := fun hi => g (by rw [hg 1 hi]; exact g2)
        exact ⟨by omega, fun h => by have := hqe h; omega⟩
    · next g =>
      cases h
      have : ¬ 0 < q.length := fun hi => g (by rw [hg 0 hi]; exact g1)
      exact ⟨by omega, fun h => by have := hqe h; omega⟩

theorem isCont_80 : isCont 0x80 = true := by decide

/-- What an invalid step takes is one byte, or begins a character. -/
theorem nextLen_false_begins {a : UInt8} {r : Bytes} {k : Nat} (h : nextLen a r = (k, false)) :
    ((a :: r).take k).length = k ∧ 1 ≤ k ∧ (k = 1 ∨ Begins ((a :: r).take k)) := by
  unfold nextLen at h
  split at h
  · cases h
  · rcases utf8Width_cases a with ⟨h1, h2, hw⟩ | ⟨h1, h2, hw⟩ | ⟨h1, h2, hw⟩ | ⟨-, hw⟩ <;> rw [hw] at h <;> simp only at h
    · split at h
      · cases h
      · cases h; exact ⟨rfl, by omega, .inl rfl⟩
    · split at h
      · next g =>
        split at h
        · cases h
        · cases h
          obtain ⟨c, hc⟩ := exists_char3 h1 h2 g isCont_80
          obtain ⟨r', hr⟩ := front1 (second3_ne g)
          have : (a :: r).take 2 = [a, safeGet r 0] := by
            conv_lhs => rw [hr]
            rfl
          rw [this]
          exact ⟨rfl, by omega, .inr ⟨c, by rw [hc]; exact ⟨[0x80], rfl⟩⟩⟩
      · cases h; exact ⟨rfl, by omega, .inl rfl⟩
    · split at h
      · next g =>
        split at h
        · next g' =>
          split at h
          · cases h
          · cases h
            obtain ⟨c, hc⟩ := exists_char4 h1 h2 g g' isCont_80
            obtain ⟨r', hr⟩ := front2 (second4_ne g) (cont_ne g')
            have : (a :: r).take 3 = [a, safeGet r 0, safeGet r 1] := by
              conv_lhs => rw [hr]
              rfl
            rw [this]
            exact ⟨rfl, by omega, .inr ⟨c, by rw [hc]; exact ⟨[0x80], rfl⟩⟩⟩
        · cases h
          obtain ⟨c, hc⟩ := exists_char4 h1 h2 g isCont_80 isCont_80
          obtain ⟨r', hr⟩ := front1 (second4_ne g)
          have : (a :: r).take 2 = [a, safeGet r 0] := by
            conv_lhs => rw [hr]
            rfl
          rw [this]
          exact ⟨rfl, by omega, .inr ⟨c, by rw [hc]; exact ⟨[0x80, 0x80], rfl⟩⟩⟩
      · cases h; exact ⟨rfl, by omega, .inl rfl⟩
    · cases h; exact ⟨rfl, by omega, .inl rfl⟩

/-- An invalid step takes a maximal subpart. -/
theorem nextLen_false {a : UInt8} {r : Bytes} {k : Nat} (h : nextLen a r = (k, false)) :
    (∀ c, ¬ encodeChar c <+: a :: r) ∧ MaximalSubpart (a :: r) ((a :: r).take k) := by
  obtain ⟨h1, h2, h3⟩ := nextLen_false_begins h
  refine ⟨?_, List.take_prefix _ _, ?_, ?_, ?_⟩
  · intro c hp
    cases hc : encodeChar c with
    | nil => exact encodeChar_ne_nil c hc
    | cons x t =>
      rw [hc, List.cons_prefix_cons] at hp
      obtain ⟨rfl, hp⟩ := hp
      exact (nextLen_false_bound h hc hp (List.prefix_refl _)).2 rfl
  · intro he
    rw [he] at h1
    simp at h1
    omega
  · rw [h1]; exact h3
  · rintro q hq ⟨c, hqc⟩
    rw [h1]
    cases q with
    | nil => simp
    | cons x q =>
      rw [List.cons_prefix_cons] at hq
      obtain ⟨rfl, hq⟩ := hq
      cases hc : encodeChar c with
      | nil => exact absurd hc (encodeChar_ne_nil c)
      | cons y t =>
        rw [hc, List.cons_prefix_cons] at hqc
        obtain ⟨rfl, hqc⟩ := hqc
        exact (nextLen_false_bound h hc hq hqc).1

theorem nextLen_pos (a : UInt8) (r : Bytes) : 1 ≤ (nextLen a r).1 := by
  rcases hn : nextLen a r with ⟨k, ok⟩
  cases ok with
  | false => exact (nextLen_false_begins hn).2.1
  | true =>
    obtain ⟨c, h1, -⟩ := nextLen_true hn
    simp only
    rcases Nat.eq_zero_or_pos k with rfl | hk
    · rw [List.take_zero] at h1
      exact absurd h1.symm (encodeChar_ne_nil c)
    · exact hk

/-- `from_utf8_lossy` shows what it should. -/
theorem lossyFuel_shown (n : Nat) (b : Bytes) (h : b.length ≤ n) : ShownAs b (lossyFuel n b) := by
  induction n generalizing b with
  | zero =>
    cases b with
    | nil => exact .nil
    | cons x xs => simp at h
  | succ n ih =>
    cases b with
    | nil => exact .nil
    | cons a r =>
      have hp := nextLen_pos a r
      simp only [lossyFuel]
      rcases hn : nextLen a r with ⟨k, ok⟩
      rw [hn] at hp
      simp only
      have hr : ((a :: r).drop k).length ≤ n := by
        simp only [List.length_drop, List.length_cons] at h hp ⊢
        omega
      cases ok with
      | true =>
        obtain ⟨c, h1, h2⟩ := nextLen_true hn
        simp only [if_true, h1]
        have : utf8Decode (encodeChar c) = some [c] := by
          have := utf8Decode_encode [c]
          simpa [utf8Encode] using this
        rw [this]
        conv => arg 1; rw [h2]
        exact .char c (ih _ hr)
      | false =>
        obtain ⟨h1, h2⟩ := nextLen_false hn
        have he : a :: r = (a :: r).take k ++ (a :: r).drop k := (List.take_append_drop _ _).symm
        conv => arg 1; rw [he]
        exact .bad (by rw [← he]; exact h1) (by rw [← he]; exact h2) (ih _ hr)

/-- What is shown is determined. -/
theorem shownAs_unique {b : Bytes} {s s' : Str} (h : ShownAs b s) (h' : ShownAs b s') : s = s' := by
  induction h generalizing s' with
  | nil =>
    generalize hb : ([] : Bytes) = b at h'
    cases h' with
    | nil => rfl
    | char c _ => exact absurd (List.append_eq_nil_iff.mp hb.symm).1 (encodeChar_ne_nil c)
    | bad _ hm _ => exact absurd (List.append_eq_nil_iff.mp hb.symm).1 hm.2.1
  | @char c b s hs ih =>
    generalize hb : encodeChar c ++ b = b0 at h'
    cases h' with
    | nil => exact absurd (List.append_eq_nil_iff.mp hb).1 (encodeChar_ne_nil c)
    | @char c' b' s'' hs' =>
      have h1 := decodeOne_encodeChar c b
      rw [hb, decodeOne_encodeChar] at h1
      simp only [Option.some.injEq, Prod.mk.injEq] at h1
      obtain ⟨rfl, rfl⟩ := h1
      rw [ih hs']
    | bad hn _ _ => exact absurd (hb ▸ List.prefix_append _ _) (hn c)
  | @bad p b s hn hm hs ih =>
    generalize hb : p ++ b = b0 at h'
    cases h' with
    | nil => exact absurd (List.append_eq_nil_iff.mp hb).1 hm.2.1
    | @char c' b' s'' hs' => exact absurd (hb ▸ List.prefix_append _ _) (hn c')
    | @bad p' b' s'' hn' hm' hs' =>
      have hlen : p.length = p'.length := by
        have key : ∀ {x y b : Bytes}, MaximalSubpart b x → MaximalSubpart b y → x.length ≤ y.length := by
          intro x y b hx hy
          rcases hx.2.2.1 with h1 | h1
          · rw [h1]
            exact List.length_pos_iff.mpr hy.2.1
          · exact hy.2.2.2 x hx.1 h1
        rw [hb] at hm
        exact Nat.le_antisymm (key hm hm') (key hm' hm)
      obtain ⟨rfl, rfl⟩ := List.append_inj hb hlen
      rw [ih hs']

end TF
