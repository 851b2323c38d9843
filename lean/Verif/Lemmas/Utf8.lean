import Verif.Rust.Utf8
import Mathlib.Tactic.Common

/-! UTF-8 round trip. -/

namespace TF

theorem toNat_ofNat_lt {n : Nat} (h : n < 256) : (UInt8.ofNat n).toNat = n := by
  simp [UInt8.toNat_ofNat', Nat.mod_eq_of_lt h]

theorem cont_ofNat {n : Nat} (h : n < 64) : cont (UInt8.ofNat (0x80 + n)) = some n := by
  unfold cont
  rw [toNat_ofNat_lt (by omega)]
  simp; omega

theorem scalar_toNat (c : Char) (lo : Nat) (h : lo ≤ c.toNat) : scalar lo c.toNat = some c := by
  unfold scalar
  have hv : c.toNat.isValidChar := c.valid
  simp [h, hv, Char.ofNat_toNat]

theorem char_lt (c : Char) : c.toNat < 0x110000 := by
  have := c.valid
  simp only [UInt32.isValidChar, Nat.isValidChar] at this
  have h : c.toNat = c.val.toNat := rfl
  omega

theorem decodeOne_encodeChar (c : Char) (r : Bytes) :
    decodeOne (encodeChar c ++ r) = some (c, r) := by
  have hlt := char_lt c
  unfold encodeChar
  simp only
  split
  · next h =>
    simp only [List.cons_append, List.nil_append, decodeOne]
    rw [toNat_ofNat_lt (by omega)]
    simp [h, Char.ofNat_toNat]
  split
  · next h1 h2 =>
    simp only [List.cons_append, List.nil_append, decodeOne]
    rw [toNat_ofNat_lt (by omega), if_neg (by omega), if_neg (by omega), if_pos (by omega),
      cont_ofNat (by omega)]
    have : (0xC0 + c.toNat / 64 - 0xC0) * 64 + c.toNat % 64 = c.toNat := by omega
    simp only [Option.bind_eq_bind, Option.bind_some, this]
    rw [scalar_toNat c _ (by omega)]
    rfl
  split
  · next h1 h2 h3 =>
    simp only [List.cons_append, List.nil_append, decodeOne]
    rw [toNat_ofNat_lt (by omega), if_neg (by omega), if_neg (by omega), if_neg (by omega),
      if_pos (by omega), cont_ofNat (by omega), cont_ofNat (by omega)]
    have : (0xE0 + c.toNat / 4096 - 0xE0) * 4096 + c.toNat / 64 % 64 * 64 + c.toNat % 64 = c.toNat := by
      omega
    simp only [Option.bind_eq_bind, Option.bind_some, this]
    rw [scalar_toNat c _ (by omega)]
    rfl
  · next h1 h2 h3 =>
    simp only [List.cons_append, List.nil_append, decodeOne]
    rw [toNat_ofNat_lt (by omega), if_neg (by omega), if_neg (by omega), if_neg (by omega),
      if_neg (by omega), if_pos (by omega), cont_ofNat (by omega), cont_ofNat (by omega),
      cont_ofNat (by omega)]
    have : (0xF0 + c.toNat / 262144 - 0xF0) * 262144 + c.toNat / 4096 % 64 * 4096
        + c.toNat / 64 % 64 * 64 + c.toNat % 64 = c.toNat := by omega
    simp only [Option.bind_eq_bind, Option.bind_some, this]
    rw [scalar_toNat c _ (by omega)]
    rfl

theorem encodeChar_ne_nil (c : Char) : encodeChar c ≠ [] := by
  unfold encodeChar
  simp only
  split
  · simp
  split
  · simp
  split <;> simp

theorem decodeFuel_encode (s : Str) (n : Nat) (hn : (utf8Encode s).length ≤ n) :
    decodeFuel n (utf8Encode s) = some s := by
  induction s generalizing n with
  | nil => cases n <;> rfl
  | cons c cs ih =>
    have he : utf8Encode (c :: cs) = encodeChar c ++ utf8Encode cs := by simp [utf8Encode]
    rw [he] at hn ⊢
    have hpos : 0 < (encodeChar c).length := List.length_pos_iff.mpr (encodeChar_ne_nil c)
    rw [List.length_append] at hn
    cases n with
    | zero => omega
    | succ n =>
      have hd := decodeOne_encodeChar c (utf8Encode cs)
      cases hx : encodeChar c ++ utf8Encode cs with
      | nil => rw [hx] at hd; simp [decodeOne] at hd
      | cons a r =>
        rw [hx] at hd
        simp only [decodeFuel, hd]
        rw [ih n (by omega)]
        rfl

theorem utf8Decode_encode (s : Str) : utf8Decode (utf8Encode s) = some s :=
  decodeFuel_encode s _ (Nat.le_refl _)

theorem utf8Encode_injective {s t : Str} (h : utf8Encode s = utf8Encode t) : s = t := by
  have h1 := utf8Decode_encode s
  rw [h, utf8Decode_encode t] at h1
  simpa using h1.symm

theorem utf8Encode_append (s t : Str) : utf8Encode (s ++ t) = utf8Encode s ++ utf8Encode t := by
  simp [utf8Encode]

/-- Only ASCII characters produce bytes below 0x80. -/
theorem mem_encodeChar_ascii {c : Char} {b : UInt8} (hb : b ∈ encodeChar c) (h : b.toNat < 0x80) :
    encodeChar c = [b] ∧ c.toNat = b.toNat := by
  have hlt := char_lt c
  unfold encodeChar at hb ⊢
  simp only at hb ⊢
  split at hb
  · next h1 =>
    simp only [List.mem_singleton] at hb
    subst hb
    simp [h1, toNat_ofNat_lt (show c.toNat < 256 by omega)]
  split at hb
  · next h1 h2 =>
    simp only [List.mem_cons, List.not_mem_nil, or_false] at hb
    rcases hb with rfl | rfl <;> rw [toNat_ofNat_lt (by omega)] at h <;> omega
  split at hb
  · next h1 h2 h3 =>
    simp only [List.mem_cons, List.not_mem_nil, or_false] at hb
    rcases hb with rfl | rfl | rfl <;> rw [toNat_ofNat_lt (by omega)] at h <;> omega
  · next h1 h2 h3 =>
    simp only [List.mem_cons, List.not_mem_nil, or_false] at hb
    rcases hb with rfl | rfl | rfl | rfl <;> rw [toNat_ofNat_lt (by omega)] at h <;> omega

theorem mem_utf8Encode_ascii {s : Str} {b : UInt8} (hb : b ∈ utf8Encode s) (h : b.toNat < 0x80) :
    ∃ c ∈ s, c.toNat = b.toNat := by
  unfold utf8Encode at hb
  rw [List.mem_flatMap] at hb
  obtain ⟨c, hc, hb⟩ := hb
  exact ⟨c, hc, (mem_encodeChar_ascii hb h).2⟩

theorem cont_eq_some {b : UInt8} {y : Nat} (h : cont b = some y) : b.toNat = 0x80 + y ∧ y < 64 := by
  unfold cont at h
  split at h
  · simp only [Option.some.injEq] at h; omega
  · cases h

theorem scalar_eq_some {lo n : Nat} {c : Char} (h : scalar lo n = some c) : lo ≤ n ∧ c.toNat = n := by
  unfold scalar at h
  split at h
  · next hv =>
    simp only [Option.some.injEq] at h
    subst h
    refine ⟨hv.1, ?_⟩
    have := hv.2
    simp [Char.ofNat, this, Char.ofNatAux, Char.toNat]
  · cases h

theorem uint8_eq_ofNat {b : UInt8} {n : Nat} (h : b.toNat = n) : b = UInt8.ofNat n := by
  subst h; simp

theorem decodeOne_sound {b r : Bytes} {c : Char} (h : decodeOne b = some (c, r)) : b = encodeChar c ++ r := by
  match b with
  | [] => simp [decodeOne] at h
  | a :: b =>
    simp only [decodeOne] at h
    split at h
    · next hx =>
      simp only [Option.some.injEq, Prod.mk.injEq] at h
      obtain ⟨rfl, rfl⟩ := h
      have hn : (Char.ofNat a.toNat).toNat = a.toNat := by
        have hv : a.toNat.isValidChar := by left; omega
        simp [Char.ofNat, hv, Char.ofNatAux, Char.toNat]
      simp [encodeChar, hn, hx]
    · next hx =>
      split at h
      · cases h
      · next hx1 =>
        split at h
        · next hx2 =>
          match b with
          | [] => simp at h
          | b1 :: b =>
            simp only [Option.bind_eq_bind, Option.bind_eq_some_iff, Option.some.injEq, Prod.mk.injEq] at h
            obtain ⟨y, hy, c', hc, rfl, rfl⟩ := h
            obtain ⟨h1, h2⟩ := cont_eq_some hy
            obtain ⟨h3, h4⟩ := scalar_eq_some hc
            unfold encodeChar
            simp only [h4]
            rw [if_neg (by omega), if_pos (by omega)]
            rw [← uint8_eq_ofNat (b := a) (by omega), ← uint8_eq_ofNat (b := b1) (by omega)]
            rfl
        · next hx2 =>
          split at h
          · next hx3 =>
            match b with
            | [] => simp at h
            | [_] => simp at h
            | b1 :: b2 :: b =>
              simp only [Option.bind_eq_bind, Option.bind_eq_some_iff, Option.some.injEq, Prod.mk.injEq] at h
              obtain ⟨y, hy, z, hz, c', hc, rfl, rfl⟩ := h
              obtain ⟨h1, h2⟩ := cont_eq_some hy
              obtain ⟨k1, k2⟩ := cont_eq_some hz
              obtain ⟨h3, h4⟩ := scalar_eq_some hc
              unfold encodeChar
              simp only [h4]
              rw [if_neg (by omega), if_neg (by omega), if_pos (by omega)]
              rw [← uint8_eq_ofNat (b := a) (by omega), ← uint8_eq_ofNat (b := b1) (by omega),
                ← uint8_eq_ofNat (b := b2) (by omega)]
              rfl
          · next hx3 =>
            split at h
            · next hx4 =>
              match b with
              | [] => simp at h
              | [_] => simp at h
              | [_, _] => simp at h
              | b1 :: b2 :: b3 :: b =>
                simp only [Option.bind_eq_bind, Option.bind_eq_some_iff, Option.some.injEq, Prod.mk.injEq] at h
                obtain ⟨y, hy, z, hz, u, hu, c', hc, rfl, rfl⟩ := h
                obtain ⟨h1, h2⟩ := cont_eq_some hy
                obtain ⟨k1, k2⟩ := cont_eq_some hz
                obtain ⟨l1, l2⟩ := cont_eq_some hu
                obtain ⟨h3, h4⟩ := scalar_eq_some hc
                unfold encodeChar
                simp only [h4]
                rw [if_neg (by omega), if_neg (by omega), if_neg (by omega)]
                rw [← uint8_eq_ofNat (b := a) (by omega), ← uint8_eq_ofNat (b := b1) (by omega),
                  ← uint8_eq_ofNat (b := b2) (by omega), ← uint8_eq_ofNat (b := b3) (by omega)]
                rfl
            · cases h

theorem decodeFuel_sound (n : Nat) (b : Bytes) (s : Str) (h : decodeFuel n b = some s) : b = utf8Encode s := by
  induction n generalizing b s with
  | zero =>
    cases b with
    | nil => simp [decodeFuel] at h; subst h; rfl
    | cons x xs => simp [decodeFuel] at h
  | succ n ih =>
    cases b with
    | nil => simp [decodeFuel] at h; subst h; rfl
    | cons x xs =>
      simp only [decodeFuel] at h
      cases h1 : decodeOne (x :: xs) with
      | none => rw [h1] at h; simp at h
      | some p =>
        obtain ⟨c, r⟩ := p
        rw [h1] at h
        simp only [Option.map_eq_some_iff] at h
        obtain ⟨s', h2, rfl⟩ := h
        rw [decodeOne_sound h1, ih r s' h2]
        simp [utf8Encode]

/-- Strict decoding: what decodes is the encoding of the result. -/
theorem utf8Decode_sound {b : Bytes} {s : Str} (h : utf8Decode b = some s) : b = utf8Encode s :=
  decodeFuel_sound _ _ _ h

theorem utf8Decode_iff {b : Bytes} {s : Str} : utf8Decode b = some s ↔ b = utf8Encode s :=
  ⟨utf8Decode_sound, fun h => h ▸ utf8Decode_encode s⟩

end TF
