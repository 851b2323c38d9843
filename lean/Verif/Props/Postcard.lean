import Verif.Spec.Postcard
import Mathlib.Tactic.Common

/-!
# C16: what is serialised in the default format is read back
-/

namespace TF

open Spec

/-! ## Integers -/

theorem takeVarintF_varintF (bits : Nat) (hk : 0 < bits % 7) (r : Bytes) : ∀ (f g m i out : Nat),
    m < 2 ^ (7 * f + bits % 7) → f ≤ g → takeVarintF bits (f + 1) i out (varintF g m ++ r) = some (out + m * 128 ^ i, r)
  | 0, g, m, i, out, hm, _ => by
    have hk7 : bits % 7 < 7 := Nat.mod_lt _ (by decide)
    have h128 : 2 ^ (bits % 7) ≤ 64 := by
      calc 2 ^ (bits % 7) ≤ 2 ^ 6 := Nat.pow_le_pow_right (by decide) (by omega)
        _ = 64 := rfl
    have hm' : m < 2 ^ (bits % 7) := by simpa using hm
    have hv : varintF g m = [UInt8.ofNat m] := by
      cases g with
      | zero => rfl
      | succ g => rw [varintF, if_pos (by omega)]
    rw [hv, List.singleton_append, takeVarintF, toNat_ofNat_lt (by omega), if_pos (by omega), if_neg]
    · rw [Nat.mod_eq_of_lt (by omega : m < 128)]
    · simp only [lastByteMax]; omega
  | f + 1, 0, m, i, out, hm, hg => by omega
  | f + 1, g + 1, m, i, out, hm, hg => by
    rw [varintF]
    by_cases h : m < 128
    · rw [if_pos h, List.singleton_append, takeVarintF, toNat_ofNat_lt (by omega), if_pos h, if_neg (by simp)]
      rw [Nat.mod_eq_of_lt h]
    · rw [if_neg h, List.cons_append, takeVarintF, toNat_ofNat_lt (by omega), if_neg (by omega)]
      rw [takeVarintF_varintF bits hk r f g (m / 128) (i + 1) _ ?_ (by omega)]
      · have h1 : (m % 128 + 128) % 128 = m % 128 := by omega
        rw [h1]
        congr 2
        have h2 : m = 128 * (m / 128) + m % 128 := (Nat.div_add_mod m 128).symm
        conv => rhs; rw [h2]
        rw [Nat.pow_succ]
        generalize m / 128 = q
        generalize m % 128 = z
        generalize 128 ^ i = w
        rw [Nat.add_mul, Nat.add_assoc, Nat.add_comm (z * w), ← Nat.mul_assoc, Nat.mul_right_comm, Nat.mul_comm 128 q]
      · rw [Nat.div_lt_iff_lt_mul (by decide)]
        calc m < 2 ^ (7 * (f + 1) + bits % 7) := hm
          _ = 2 ^ (7 * f + bits % 7) * 128 := by rw [show 7 * (f + 1) + bits % 7 = 7 * f + bits % 7 + 7 by omega, Nat.pow_add]

/-- The widths in use. -/
def GoodBits (bits : Nat) : Prop := bits = 16 ∨ bits = 32 ∨ bits = 64 ∨ bits = 128

theorem Wd.good (w : Wd) : GoodBits w.bits := by cases w <;> simp [GoodBits, Wd.bits]

theorem half_eq (w : Wd) : half w = 2 ^ (w.bits - 1) := by cases w <;> rfl

theorem two_half (w : Wd) : 2 * half w = 2 ^ w.bits := by cases w <;> rfl

theorem takeVarint_varint {bits n : Nat} (hb : GoodBits bits) (hn : n < 2 ^ bits) (r : Bytes) :
    takeVarint bits (varint n ++ r) = some (n, r) := by
  have h := fun f hf hg hm => takeVarintF_varintF bits hf r f 18 n 0 0 hm hg
  simp only [Nat.zero_add, Nat.pow_zero, Nat.mul_one] at h
  rcases hb with rfl | rfl | rfl | rfl
  · exact h 2 (by decide) (by decide) hn
  · exact h 4 (by decide) (by decide) hn
  · exact h 9 (by decide) (by decide) hn
  · exact h 18 (by decide) (by decide) hn

theorem unzigzag_zigzag (z : Int) : unzigzag (zigzag z) = z := by
  cases z with
  | ofNat n => simp [zigzag, unzigzag]
  | negSucc n =>
    have h : zigzag (.negSucc n) = 2 * n + 1 := rfl
    rw [h, unzigzag, if_neg (by omega)]
    congr 1
    omega

theorem zigzag_lt {z : Int} {k : Nat} (h1 : -(2 ^ k : Nat) ≤ z) (h2 : z < (2 ^ k : Nat)) : zigzag z < 2 ^ (k + 1) := by
  rw [Nat.pow_succ]
  cases z with
  | ofNat n => simp only [zigzag, Int.ofNat_eq_natCast] at *; omega
  | negSucc n => simp only [zigzag] at *; omega

/-! ## The buffer -/

/-- Take one part after the other. -/
def Policy.takes (p : Policy) : List Nat → Nat → Option Nat
  | [], buf => some buf
  | n :: l, buf => (p.take n buf).bind (p.takes l)

theorem Policy.takes_append (p : Policy) (l m : List Nat) (buf : Nat) :
    p.takes (l ++ m) buf = (p.takes l buf).bind (p.takes m) := by
  induction l generalizing buf with
  | nil => rfl
  | cons n l ih =>
    simp only [List.cons_append, takes]
    cases p.take n buf with
    | none => rfl
    | some b => exact ih b

theorem takes_temp (l : List Nat) (buf : Nat) :
    Policy.takes .temp l buf = if ∀ n ∈ l, n ≤ buf then some buf else none := by
  induction l with
  | nil => simp [Policy.takes]
  | cons n l ih =>
    simp only [Policy.takes, Policy.take]
    by_cases h : n ≤ buf
    · simp only [if_pos h, Option.bind_some, ih]
      by_cases h' : ∀ n ∈ l, n ≤ buf
      · rw [if_pos h', if_pos]
        intro m hm
        rcases List.mem_cons.mp hm with rfl | hm
        · exact h
        · exact h' m hm
      · rw [if_neg h', if_neg]
        exact fun h => h' fun m hm => h m (List.mem_cons_of_mem _ hm)
    · rw [if_neg h, if_neg]
      · rfl
      · exact fun h' => h (h' n (by simp))

theorem takes_keep (l : List Nat) (buf : Nat) :
    Policy.takes .keep l buf = if l.sum ≤ buf then some (buf - l.sum) else none := by
  induction l generalizing buf with
  | nil => simp [Policy.takes]
  | cons n l ih =>
    rw [List.sum_cons]
    simp only [Policy.takes, Policy.take]
    by_cases h : n ≤ buf
    · simp only [if_pos h, Option.bind_some, ih]
      by_cases h' : l.sum ≤ buf - n
      · rw [if_pos h', if_pos (by omega)]; congr 1; omega
      · rw [if_neg h', if_neg (by omega)]
    · rw [if_neg h, if_neg (by omega)]; rfl

theorem takes_isSome {p : Policy} {v : SVal} {buf : Nat} : (∃ b, p.takes (chunks v) buf = some b) ↔ Fits p v buf := by
  cases p with
  | temp =>
    rw [takes_temp, Fits]
    split
    · rename_i h; exact ⟨fun _ => h, fun _ => ⟨_, rfl⟩⟩
    · rename_i h; exact ⟨fun ⟨_, h'⟩ => (nomatch h'), fun h' => absurd h' h⟩
  | keep =>
    rw [takes_keep, Fits]
    split <;> simp [*]

theorem takeN_append (p : Policy) (x r : Bytes) (buf : Nat) :
    takeN p x.length buf (x ++ r) = (p.take x.length buf).map fun b => (x, b, r) := by
  unfold takeN
  cases p.take x.length buf <;> simp

theorem encodeChar_length (c : Char) : (encodeChar c).length ≤ 4 := by
  unfold encodeChar
  simp only
  split
  · simp
  · split
    · simp
    · split <;> simp

theorem utf8Encode_singleton (c : Char) : utf8Encode [c] = encodeChar c := by simp [utf8Encode]

/-! ## Values -/

/-- What reading a serialised value gives. -/
def ReadsBack {α : Type} (p : Policy) (l : List Nat) (v : α) (buf : Nat) (r : Bytes) : Option (α × Nat × Bytes) :=
  (p.takes l buf).map fun b => (v, b, r)

theorem readsBack_one {α : Type} (p : Policy) (n : Nat) (v : α) (buf : Nat) (r : Bytes) :
    ReadsBack p [n] v buf r = (p.take n buf).map fun b => (v, b, r) := by
  unfold ReadsBack Policy.takes
  cases p.take n buf <;> rfl

theorem readsBack_bind {α γ : Type} (p : Policy) {l m : List Nat} {v : α} {z : γ} {buf : Nat} {r r' : Bytes}
    {f : α × Nat × Bytes → Option (γ × Nat × Bytes)} (hf : ∀ b, f (v, b, r) = ReadsBack p m z b r') :
    (ReadsBack p l v buf r).bind f = ReadsBack p (l ++ m) z buf r' := by
  unfold ReadsBack at *
  rw [Policy.takes_append]
  cases p.takes l buf with
  | none => rfl
  | some b =>
    simp only [Option.map_some, Option.bind_some, hf]

theorem readsBack_map {α γ : Type} (p : Policy) {l : List Nat} {v : α} {z : γ} {buf : Nat} {r : Bytes}
    {f : α × Nat × Bytes → Option (γ × Nat × Bytes)} (hf : ∀ b, f (v, b, r) = some (z, b, r)) :
    (ReadsBack p l v buf r).bind f = ReadsBack p l z buf r := by
  unfold ReadsBack
  cases p.takes l buf with
  | none => rfl
  | some b => exact hf b

mutual

theorem dec_enc (p : Policy) : ∀ {v : SVal} {s : Sch}, Conforms v s → ∀ (buf : Nat) (r : Bytes),
    s.dec p buf (v.enc ++ r) = ReadsBack p (chunks v) v buf r
  | _, _, .bool b, buf, r => by cases b <;> rfl
  | _, _, .byte b, buf, r => rfl
  | _, _, .uint (n := n) (w := w) h, buf, r => by
    rw [SVal.enc, Sch.dec, takeVarint_varint w.good (two_half w ▸ h)]; rfl
  | _, _, .int (z := z) (w := w) h1 h2, buf, r => by
    rw [SVal.enc, Sch.dec, takeVarint_varint w.good]
    · simp only [Option.bind_eq_bind, Option.bind_some, unzigzag_zigzag]; rfl
    · rw [half_eq] at h1 h2
      have := zigzag_lt h1 h2
      rwa [Nat.sub_add_cancel] at this
      cases w <;> decide
  | _, _, .float (b := b) h, buf, r => by
    subst h
    rw [SVal.enc, Sch.dec, takeN_append, chunks, readsBack_one]
    cases p.take b.length buf <;> rfl
  | _, _, .char c, buf, r => by
    have h4 := encodeChar_length c
    rw [SVal.enc, Sch.dec, List.append_assoc, takeVarint_varint (by simp [GoodBits]) (by omega)]
    simp only [Option.bind_eq_bind, Option.bind_some, if_pos h4]
    rw [takeN_append, chunks, readsBack_one]
    cases p.take (encodeChar c).length buf with
    | none => rfl
    | some b =>
      simp only [Option.map_some, Option.bind_some]
      rw [← utf8Encode_singleton, utf8Decode_encode]
  | _, _, .string (s := s) h, buf, r => by
    rw [SVal.enc, Sch.dec, List.append_assoc, takeVarint_varint (by simp [GoodBits]) h]
    simp only [Option.bind_eq_bind, Option.bind_some]
    rw [takeN_append, chunks, readsBack_one]
    cases p.take (utf8Encode s).length buf with
    | none => rfl
    | some b =>
      simp only [Option.map_some, Option.bind_some]
      rw [utf8Decode_encode]
      rfl
  | _, _, .bytes (b := b) h, buf, r => by
    rw [SVal.enc, Sch.dec, List.append_assoc, takeVarint_varint (by simp [GoodBits]) h]
    simp only [Option.bind_eq_bind, Option.bind_some]
    rw [takeN_append, chunks, readsBack_one]
    cases p.take b.length buf <;> rfl
  | _, _, .unit, buf, r => rfl
  | _, _, .none s, buf, r => rfl
  | _, _, .some (v := v) (s := s) h, buf, r => by
    rw [SVal.enc, List.cons_append, Sch.dec, chunks]
    simp only [dec_enc p h buf r, Option.bind_eq_bind]
    exact readsBack_map p fun b => rfl
  | _, _, .seq (vs := vs) (s := s) hl h, buf, r => by
    rw [SVal.enc, Sch.dec, List.append_assoc, takeVarint_varint (by simp [GoodBits]) hl, chunks]
    simp only [Option.bind_eq_bind, Option.bind_some, decN_enc p h buf r]
    exact readsBack_map p fun b => rfl
  | _, _, .tuple (vs := vs) (ss := ss) h, buf, r => by
    rw [SVal.enc, Sch.dec, chunks, decAll_enc p h buf r]
    exact readsBack_map p fun b => rfl
  | _, _, .variant (i := i) (v := v) (ss := ss) hi h, buf, r => by
    rw [SVal.enc, Sch.dec, List.append_assoc, takeVarint_varint (by simp [GoodBits]) hi, chunks]
    simp only [Option.bind_eq_bind, Option.bind_some, decNth_enc p h buf r]
    exact readsBack_map p fun b => rfl

theorem decN_enc (p : Policy) : ∀ {vs : SVals} {s : Sch}, AllConform vs s → ∀ (buf : Nat) (r : Bytes),
    decN (s.dec p) vs.length buf (vs.enc ++ r) = ReadsBack p (chunksAll vs) vs buf r
  | _, _, .nil s, buf, r => rfl
  | _, _, .cons (v := v) (r := vs) (s := s) h h', buf, r => by
    rw [SVals.enc, SVals.length, decN, List.append_assoc, dec_enc p h, chunksAll]
    refine readsBack_bind p fun b => ?_
    simp only [decN_enc p h', Option.bind_eq_bind]
    exact readsBack_map p fun b => rfl

theorem decAll_enc (p : Policy) : ∀ {vs : SVals} {ss : Schs}, EachConforms vs ss → ∀ (buf : Nat) (r : Bytes),
    ss.decAll p buf (vs.enc ++ r) = ReadsBack p (chunksAll vs) vs buf r
  | _, _, .nil, buf, r => rfl
  | _, _, .cons (v := v) (r := vs) h h', buf, r => by
    rw [SVals.enc, Schs.decAll, List.append_assoc, dec_enc p h, chunksAll]
    refine readsBack_bind p fun b => ?_
    simp only [decAll_enc p h', Option.bind_eq_bind]
    exact readsBack_map p fun b => rfl

theorem decNth_enc (p : Policy) : ∀ {v : SVal} {ss : Schs} {i : Nat}, NthConforms v ss i → ∀ (buf : Nat) (r : Bytes),
    ss.decNth p i buf (v.enc ++ r) = ReadsBack p (chunks v) v buf r
  | _, _, _, .here ss h, buf, r => by rw [Schs.decNth, dec_enc p h]
  | _, _, _, .there s h, buf, r => by rw [Schs.decNth, decNth_enc p h]

end

/-- **C16.** For every schema, every value that conforms to it and whatever follows in the input: if the value fits in the
sliding buffer, what is read is the value; otherwise, nothing is read. -/
theorem C16_round_trip (p : Policy) (s : Sch) (v : SVal) (h : Conforms v s) (r : Bytes) :
    (Fits p v 2048 → postDeserialize p s (postSerialize v ++ r) = some v) ∧
      (¬ Fits p v 2048 → postDeserialize p s (postSerialize v ++ r) = none) := by
  unfold postDeserialize postSerialize
  rw [dec_enc p h, ReadsBack, slidingBufferSize]
  constructor
  · intro hf
    obtain ⟨b, hb⟩ := takes_isSome.mpr hf
    rw [hb]
    rfl
  · intro hf
    cases hb : p.takes (chunks v) 2048 with
    | none => rfl
    | some b => exact absurd (takes_isSome.mp ⟨b, hb⟩) hf

theorem le_sum_of_mem {n : Nat} : ∀ {l : List Nat}, n ∈ l → n ≤ l.sum
  | m :: l, h => by
    rw [List.sum_cons]
    rcases List.mem_cons.mp h with rfl | h
    · omega
    · have := le_sum_of_mem h; omega

/-- **C16.** A value that contains a string of more than 2048 bytes is written, but not read back. -/
theorem C16_long_string (p : Policy) (s : Sch) (v : SVal) (h : Conforms v s) (n : Nat) (hn : n ∈ chunks v) (hl : 2048 < n)
    (r : Bytes) : postDeserialize p s (postSerialize v ++ r) = none := by
  refine (C16_round_trip p s v h r).2 fun hf => ?_
  cases p with
  | temp => exact absurd (hf n hn) (by omega)
  | keep =>
    simp only [Fits] at hf
    have := le_sum_of_mem hn
    omega

/-- **C16.** Different values of a type are serialised differently, and neither is a prefix of the other. -/
theorem C16_prefix_free (s : Sch) (v w : SVal) (hv : Conforms v s) (hw : Conforms w s) (r r' : Bytes)
    (h : postSerialize v ++ r = postSerialize w ++ r') : v = w ∧ r = r' := by
  have h1 := dec_enc .keep hv ((chunks v).sum + (chunks w).sum) r
  have h2 := dec_enc .keep hw ((chunks v).sum + (chunks w).sum) r'
  rw [show v.enc ++ r = w.enc ++ r' from h, h2] at h1
  unfold ReadsBack at h1
  rw [takes_keep, takes_keep, if_pos (by omega), if_pos (by omega)] at h1
  simp only [Option.map_some, Option.some.injEq, Prod.mk.injEq] at h1
  exact ⟨h1.1.symm, h1.2.2.symm⟩

/-! ## What is read -/


theorem takeVarintF_lt (bits : Nat) (r : Bytes) (n : Nat) : ∀ (f i out : Nat) (b : Bytes),
    takeVarintF bits (f + 1) i out b = some (n, r) → ∃ m, n = out + m * 128 ^ i ∧ m < 2 ^ (7 * f + bits % 7)
  | _, _, _, [], h => by simp [takeVarintF] at h
  | 0, i, out, x :: b, h => by
    rw [takeVarintF] at h
    simp only [true_and] at h
    split at h
    · split at h
      · cases h
      · rename_i h1 h2
        simp only [Option.some.injEq, Prod.mk.injEq] at h
        refine ⟨x.toNat % 128, h.1.symm, ?_⟩
        have hp : 0 < 2 ^ (bits % 7) := Nat.pow_pos (by decide)
        have h3 : x.toNat % 128 = x.toNat := Nat.mod_eq_of_lt h1
        simp only [lastByteMax] at h2
        simp only [Nat.mul_zero, Nat.zero_add]
        omega
    · simp [takeVarintF] at h
  | f + 1, i, out, x :: b, h => by
    have hp : 0 < 2 ^ (7 * f + bits % 7) := Nat.pow_pos (by decide)
    have he : 2 ^ (7 * (f + 1) + bits % 7) = 2 ^ (7 * f + bits % 7) * 128 := by
      rw [show 7 * (f + 1) + bits % 7 = 7 * f + bits % 7 + 7 by omega, Nat.pow_add]
    rw [takeVarintF] at h
    split at h
    · rw [if_neg (by simp)] at h
      simp only [Option.some.injEq, Prod.mk.injEq] at h
      exact ⟨x.toNat % 128, h.1.symm, by omega⟩
    · obtain ⟨m, h1, h2⟩ := takeVarintF_lt bits r n f _ _ b h
      refine ⟨x.toNat % 128 + m * 128, ?_, by omega⟩
      rw [h1, Nat.pow_succ, Nat.add_mul, Nat.add_assoc, Nat.mul_comm (128 ^ i) 128, Nat.mul_assoc]

theorem takeVarint_lt {bits n : Nat} {b r : Bytes} (hb : GoodBits bits) (h : takeVarint bits b = some (n, r)) :
    n < 2 ^ bits := by
  have key := fun f h => takeVarintF_lt bits r n f 0 0 b h
  simp only [Nat.zero_add, Nat.pow_zero, Nat.mul_one] at key
  rcases hb with rfl | rfl | rfl | rfl
  · obtain ⟨m, rfl, hm⟩ := key 2 h; exact hm
  · obtain ⟨m, rfl, hm⟩ := key 4 h; exact hm
  · obtain ⟨m, rfl, hm⟩ := key 9 h; exact hm
  · obtain ⟨m, rfl, hm⟩ := key 18 h; exact hm

theorem unzigzag_range {n k : Nat} (h : n < 2 ^ (k + 1)) : -(2 ^ k : Nat) ≤ unzigzag n ∧ unzigzag n < (2 ^ k : Nat) := by
  rw [Nat.pow_succ] at h
  unfold unzigzag
  split
  · simp only [Int.ofNat_eq_natCast]; omega
  · omega

theorem Policy.take_mono {p : Policy} {n m b b' c : Nat} (hn : m ≤ n) (hb : b ≤ b') (h : p.take n b = some c) :
    ∃ c', p.take m b' = some c' ∧ c ≤ c' := by
  unfold Policy.take at h ⊢
  split at h
  · rw [if_pos (by omega)]
    refine ⟨_, rfl, ?_⟩
    simp only [Option.some.injEq] at h
    subst h
    cases p <;> simp only <;> omega
  · cases h

theorem Policy.takes_mono {p : Policy} : ∀ {l : List Nat} {b b' c : Nat}, b ≤ b' → p.takes l b = some c →
    ∃ c', p.takes l b' = some c' ∧ c ≤ c'
  | [], b, b', c, hb, h => by
    simp only [Policy.takes, Option.some.injEq] at h
    subst h
    exact ⟨b', rfl, hb⟩
  | n :: l, b, b', c, hb, h => by
    simp only [Policy.takes] at h ⊢
    cases ht : p.take n b with
    | none => rw [ht] at h; cases h
    | some d =>
      rw [ht] at h
      obtain ⟨d', h1, h2⟩ := Policy.take_mono (Nat.le_refl n) hb ht
      rw [h1]
      exact Policy.takes_mono h2 h

theorem takeN_eq_some {p : Policy} {n buf buf' : Nat} {b x r : Bytes} (h : takeN p n buf b = some (x, buf', r)) :
    x.length = n ∧ p.take n buf = some buf' := by
  unfold takeN at h
  cases ht : p.take n buf with
  | none => rw [ht] at h; cases h
  | some d =>
    rw [ht] at h
    simp only [Option.bind_eq_bind, Option.bind_some] at h
    split at h
    · rename_i hl
      simp only [Option.some.injEq, Prod.mk.injEq] at h
      exact ⟨by rw [← h.1, List.length_take]; omega, by rw [h.2.1]⟩
    · cases h

/-- The parts of the value go through the buffer, and not less of it is left than after reading. -/
def Room (p : Policy) (l : List Nat) (buf buf' : Nat) : Prop := ∃ c, p.takes l buf = some c ∧ buf' ≤ c

theorem Room.one {p : Policy} {n m buf buf' : Nat} (hm : m ≤ n) (h : p.take n buf = some buf') : Room p [m] buf buf' := by
  obtain ⟨c, h1, h2⟩ := Policy.take_mono hm (Nat.le_refl buf) h
  exact ⟨c, by rw [Policy.takes, h1]; rfl, h2⟩

theorem Room.nil (p : Policy) (buf : Nat) : Room p [] buf buf := ⟨buf, rfl, Nat.le_refl _⟩

theorem Room.append {p : Policy} {l m : List Nat} {a b c : Nat} (h1 : Room p l a b) (h2 : Room p m b c) :
    Room p (l ++ m) a c := by
  obtain ⟨x, hx, hb⟩ := h1
  obtain ⟨y, hy, hc⟩ := h2
  obtain ⟨z, hz, hyz⟩ := Policy.takes_mono hb hy
  exact ⟨z, by rw [Policy.takes_append, hx]; exact hz, by omega⟩

theorem decN_sound (p : Policy) (s : Sch) (hs : ∀ {buf : Nat} {b : Bytes} {v : SVal} {buf' : Nat} {r : Bytes},
    s.dec p buf b = some (v, buf', r) → Conforms v s ∧ Room p (chunks v) buf buf') : ∀ (n : Nat) {buf : Nat} {b : Bytes}
    {vs : SVals} {buf' : Nat} {r : Bytes}, decN (s.dec p) n buf b = some (vs, buf', r) →
      vs.length = n ∧ AllConform vs s ∧ Room p (chunksAll vs) buf buf'
  | 0, buf, b, v, buf', r, h => by
    simp only [decN, Option.some.injEq, Prod.mk.injEq] at h
    obtain ⟨rfl, rfl, rfl⟩ := h; exact ⟨rfl, .nil s, .nil p _⟩
  | n + 1, buf, b, v, buf', r, h => by
    simp only [decN, Option.bind_eq_bind] at h
    obtain ⟨⟨x, bu, b'⟩, h1, h⟩ := Option.bind_eq_some_iff.mp h
    obtain ⟨⟨xs, bu', b''⟩, h2, h⟩ := Option.bind_eq_some_iff.mp h
    simp only [Option.some.injEq, Prod.mk.injEq] at h
    obtain ⟨rfl, rfl, rfl⟩ := h
    obtain ⟨h3, h4⟩ := hs h1
    obtain ⟨h5, h6, h7⟩ := decN_sound p s hs n h2
    exact ⟨by rw [SVals.length, h5], .cons h3 h6, h4.append h7⟩

mutual

theorem dec_sound (p : Policy) : ∀ (s : Sch) {buf : Nat} {b : Bytes} {v : SVal} {buf' : Nat} {r : Bytes},
    s.dec p buf b = some (v, buf', r) → Conforms v s ∧ Room p (chunks v) buf buf'
  | .bool, buf, b, v, buf', r, h => by
    simp only [Sch.dec] at h
    split at h <;> simp only [Option.some.injEq, Prod.mk.injEq, reduceCtorEq] at h
    · obtain ⟨rfl, rfl, rfl⟩ := h; exact ⟨.bool _, .nil p _⟩
    · obtain ⟨rfl, rfl, rfl⟩ := h; exact ⟨.bool _, .nil p _⟩
  | .byte, buf, b, v, buf', r, h => by
    simp only [Sch.dec] at h
    split at h <;> simp only [Option.some.injEq, Prod.mk.injEq, reduceCtorEq] at h
    obtain ⟨rfl, rfl, rfl⟩ := h; exact ⟨.byte _, .nil p _⟩
  | .uint w, buf, b, v, buf', r, h => by
    simp only [Sch.dec, Option.bind_eq_bind] at h
    obtain ⟨⟨n, b'⟩, h1, h⟩ := Option.bind_eq_some_iff.mp h
    simp only [Option.some.injEq, Prod.mk.injEq] at h
    obtain ⟨rfl, rfl, rfl⟩ := h
    exact ⟨.uint (two_half w ▸ takeVarint_lt w.good h1), .nil p _⟩
  | .int w, buf, b, v, buf', r, h => by
    simp only [Sch.dec, Option.bind_eq_bind] at h
    obtain ⟨⟨n, b'⟩, h1, h⟩ := Option.bind_eq_some_iff.mp h
    simp only [Option.some.injEq, Prod.mk.injEq] at h
    obtain ⟨rfl, rfl, rfl⟩ := h
    have h2 := takeVarint_lt w.good h1
    have h3 := unzigzag_range (n := n) (k := w.bits - 1) (by rw [Nat.sub_add_cancel (by cases w <;> decide)]; exact h2)
    rw [← half_eq] at h3
    exact ⟨.int h3.1 h3.2, .nil p _⟩
  | .float n, buf, b, v, buf', r, h => by
    simp only [Sch.dec, Option.bind_eq_bind] at h
    obtain ⟨⟨x, bu, b'⟩, h1, h⟩ := Option.bind_eq_some_iff.mp h
    simp only [Option.some.injEq, Prod.mk.injEq] at h
    obtain ⟨rfl, rfl, rfl⟩ := h
    obtain ⟨h2, h3⟩ := takeN_eq_some h1
    exact ⟨.float h2, .one (by omega) h3⟩
  | .char, buf, b, v, buf', r, h => by
    simp only [Sch.dec, Option.bind_eq_bind] at h
    obtain ⟨⟨n, b'⟩, h1, h⟩ := Option.bind_eq_some_iff.mp h
    simp only at h
    split at h
    · obtain ⟨⟨x, bu, b'⟩, h1, h⟩ := Option.bind_eq_some_iff.mp h
      simp only at h
      split at h
      · rename_i c t hx
        simp only [Option.some.injEq, Prod.mk.injEq] at h
        obtain ⟨rfl, rfl, rfl⟩ := h
        obtain ⟨h2, h3⟩ := takeN_eq_some h1
        refine ⟨.char _, .one ?_ h3⟩
        rw [utf8Decode_iff.mp hx] at h2
        rw [← h2]
        simp [utf8Encode]
      · cases h
    · cases h
  | .string, buf, b, v, buf', r, h => by
    simp only [Sch.dec, Option.bind_eq_bind] at h
    obtain ⟨⟨n, b'⟩, h0, h⟩ := Option.bind_eq_some_iff.mp h
    obtain ⟨⟨x, bu, b'⟩, h1, h⟩ := Option.bind_eq_some_iff.mp h
    obtain ⟨t, hx, h⟩ := Option.bind_eq_some_iff.mp h
    simp only [Option.some.injEq, Prod.mk.injEq] at h
    obtain ⟨rfl, rfl, rfl⟩ := h
    obtain ⟨h2, h3⟩ := takeN_eq_some h1
    rw [show x = _ from utf8Decode_iff.mp hx] at h2
    simp only at h2
    have := takeVarint_lt (by simp [GoodBits]) h0
    exact ⟨.string (by omega), .one (by omega) h3⟩
  | .bytes, buf, b, v, buf', r, h => by
    simp only [Sch.dec, Option.bind_eq_bind] at h
    obtain ⟨⟨n, b'⟩, h0, h⟩ := Option.bind_eq_some_iff.mp h
    obtain ⟨⟨x, bu, b'⟩, h1, h⟩ := Option.bind_eq_some_iff.mp h
    simp only [Option.some.injEq, Prod.mk.injEq] at h
    obtain ⟨rfl, rfl, rfl⟩ := h
    obtain ⟨h2, h3⟩ := takeN_eq_some h1
    have := takeVarint_lt (by simp [GoodBits]) h0
    exact ⟨.bytes (by omega), .one (by omega) h3⟩
  | .unit, buf, b, v, buf', r, h => by
    simp only [Sch.dec, Option.some.injEq, Prod.mk.injEq] at h
    obtain ⟨rfl, rfl, rfl⟩ := h; exact ⟨.unit, .nil p _⟩
  | .option s, buf, b, v, buf', r, h => by
    simp only [Sch.dec] at h
    split at h
    · simp only [Option.some.injEq, Prod.mk.injEq] at h
      obtain ⟨rfl, rfl, rfl⟩ := h; exact ⟨.none s, .nil p _⟩
    · simp only [Option.bind_eq_bind] at h
      obtain ⟨⟨x, bu, b'⟩, h1, h⟩ := Option.bind_eq_some_iff.mp h
      simp only [Option.some.injEq, Prod.mk.injEq] at h
      obtain ⟨rfl, rfl, rfl⟩ := h
      obtain ⟨h2, h3⟩ := dec_sound p s h1
      exact ⟨.some h2, h3⟩
    · cases h
  | .seq s, buf, b, v, buf', r, h => by
    simp only [Sch.dec, Option.bind_eq_bind] at h
    obtain ⟨⟨n, b'⟩, h0, h⟩ := Option.bind_eq_some_iff.mp h
    obtain ⟨⟨x, bu, b'⟩, h1, h⟩ := Option.bind_eq_some_iff.mp h
    simp only [Option.some.injEq, Prod.mk.injEq] at h
    obtain ⟨rfl, rfl, rfl⟩ := h
    obtain ⟨h2, h3, h4⟩ := decN_sound p s (fun h => dec_sound p s h) n h1
    have := takeVarint_lt (by simp [GoodBits]) h0
    exact ⟨.seq (by omega) h3, h4⟩
  | .tuple ss, buf, b, v, buf', r, h => by
    simp only [Sch.dec, Option.bind_eq_bind] at h
    obtain ⟨⟨x, bu, b'⟩, h1, h⟩ := Option.bind_eq_some_iff.mp h
    simp only [Option.some.injEq, Prod.mk.injEq] at h
    obtain ⟨rfl, rfl, rfl⟩ := h
    obtain ⟨h2, h3⟩ := decAll_sound p ss h1
    exact ⟨.tuple h2, h3⟩
  | .enum ss, buf, b, v, buf', r, h => by
    simp only [Sch.dec, Option.bind_eq_bind] at h
    obtain ⟨⟨i, b'⟩, h0, h⟩ := Option.bind_eq_some_iff.mp h
    obtain ⟨⟨x, bu, b'⟩, h1, h⟩ := Option.bind_eq_some_iff.mp h
    simp only [Option.some.injEq, Prod.mk.injEq] at h
    obtain ⟨rfl, rfl, rfl⟩ := h
    obtain ⟨h2, h3⟩ := decNth_sound p ss h1
    exact ⟨.variant (takeVarint_lt (by simp [GoodBits]) h0) h2, h3⟩

theorem decAll_sound (p : Policy) : ∀ (ss : Schs) {buf : Nat} {b : Bytes} {vs : SVals} {buf' : Nat} {r : Bytes},
    ss.decAll p buf b = some (vs, buf', r) → EachConforms vs ss ∧ Room p (chunksAll vs) buf buf'
  | .nil, buf, b, v, buf', r, h => by
    simp only [Schs.decAll, Option.some.injEq, Prod.mk.injEq] at h
    obtain ⟨rfl, rfl, rfl⟩ := h; exact ⟨.nil, .nil p _⟩
  | .cons s ss, buf, b, v, buf', r, h => by
    simp only [Schs.decAll, Option.bind_eq_bind] at h
    obtain ⟨⟨x, bu, b'⟩, h1, h⟩ := Option.bind_eq_some_iff.mp h
    obtain ⟨⟨xs, bu', b''⟩, h2, h⟩ := Option.bind_eq_some_iff.mp h
    simp only [Option.some.injEq, Prod.mk.injEq] at h
    obtain ⟨rfl, rfl, rfl⟩ := h
    obtain ⟨h3, h4⟩ := dec_sound p s h1
    obtain ⟨h5, h6⟩ := decAll_sound p ss h2
    exact ⟨.cons h3 h5, h4.append h6⟩

theorem decNth_sound (p : Policy) : ∀ (ss : Schs) {i buf : Nat} {b : Bytes} {v : SVal} {buf' : Nat} {r : Bytes},
    ss.decNth p i buf b = some (v, buf', r) → NthConforms v ss i ∧ Room p (chunks v) buf buf'
  | .nil, i, buf, b, v, buf', r, h => by simp [Schs.decNth] at h
  | .cons s ss, 0, buf, b, v, buf', r, h => by
    rw [Schs.decNth] at h
    obtain ⟨h1, h2⟩ := dec_sound p s h
    exact ⟨.here ss h1, h2⟩
  | .cons s ss, i + 1, buf, b, v, buf', r, h => by
    rw [Schs.decNth] at h
    obtain ⟨h1, h2⟩ := decNth_sound p ss h
    exact ⟨.there s h1, h2⟩

end

/-- **C16.** Whatever bytes are read as a value of a type: it is a value of the type, and serialising it gives bytes that
are read as the same value. (The bytes themselves can be others: numbers can be written with more bytes than needed.) -/
theorem C16_read_stable (p : Policy) (s : Sch) (b : Bytes) (v : SVal) (h : postDeserialize p s b = some v) (r : Bytes) :
    Conforms v s ∧ postDeserialize p s (postSerialize v ++ r) = some v := by
  unfold postDeserialize at h
  cases hd : s.dec p slidingBufferSize b with
  | none => rw [hd] at h; cases h
  | some x =>
    obtain ⟨v', buf', r'⟩ := x
    rw [hd] at h
    simp only [Option.map_some, Option.some.injEq] at h
    subst h
    obtain ⟨h1, c, h2, -⟩ := dec_sound p s hd
    exact ⟨h1, (C16_round_trip p s v' h1 r).1 (takes_isSome.mp ⟨c, h2⟩)⟩

/-- **C16.** The value that is read depends on the bytes up to its end only. -/
theorem C16_prefix_only (p : Policy) (s : Sch) (v : SVal) (h : Conforms v s) (r r' : Bytes) :
    postDeserialize p s (postSerialize v ++ r) = postDeserialize p s (postSerialize v ++ r') := by
  by_cases hf : Fits p v 2048
  · rw [(C16_round_trip p s v h r).1 hf, (C16_round_trip p s v h r').1 hf]
  · rw [(C16_round_trip p s v h r).2 hf, (C16_round_trip p s v h r').2 hf]

/-! ## Cases -/

namespace PostDemo

/-- `(Vec<Option<u16>>, i32, E)` with `enum E { A, B(String) }`. -/
def sch : Sch := .tuple (.cons (.seq (.option (.uint .w16))) (.cons (.int .w32) (.cons (.enum (.cons .unit (.cons .string .nil))) .nil)))

/-- `(vec![Some(300), None], -3, E::B("é"))` -/
def val : SVal := .tuple (.cons (.seq (.cons (.some (.uint 300)) (.cons .none .nil))) (.cons (.int (-3))
  (.cons (.variant 1 (.string c%"é")) .nil)))

theorem conforms : Conforms val sch :=
  .tuple (.cons (.seq (by decide) (.cons (.some (.uint (by decide))) (.cons (.none _) (.nil _))))
    (.cons (.int (by decide) (by decide)) (.cons (.variant (by decide) (.there _ (.here _ (.string (by decide +kernel)))))
      .nil)))

example : postSerialize val = [2, 1, 0xAC, 0x02, 0, 5, 1, 2, 0xC3, 0xA9] := by decide +kernel

example (r : Bytes) : postDeserialize .temp sch ([2, 1, 0xAC, 0x02, 0, 5, 1, 2, 0xC3, 0xA9] ++ r) = some val := by
  have h := (C16_round_trip .temp sch val conforms r).1
  rw [show postSerialize val = [2, 1, 0xAC, 0x02, 0, 5, 1, 2, 0xC3, 0xA9] by decide +kernel] at h
  refine h fun n hn => ?_
  have : chunks val = [2] := by decide +kernel
  rw [this] at hn
  simp at hn
  omega

/-- A string of 2049 bytes. -/
def long : Str := List.replicate 2049 'a'

theorem long_length : (utf8Encode long).length = 2049 := by decide +kernel

example (p : Policy) (r : Bytes) : postDeserialize p .string (postSerialize (.string long) ++ r) = none :=
  C16_long_string p .string _ (.string (by rw [long_length]; decide)) 2049 (by simp [chunks, long_length]) (by decide) r

/-- Numbers can be written in more than one way (`C16_read_stable`). -/
example : postDeserialize .temp (.uint .w16) [0x80, 0x00] = some (.uint 0) ∧ postSerialize (.uint 0) = [0] := by
  decide +kernel

end PostDemo

end TF
