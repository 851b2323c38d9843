import Verif.Model.Sha1
import Verif.Spec.Sha1
import Verif.Props.Recording

/-!
# C73: the hash is the SHA-1 of the standard
-/

namespace TF

open Spec Spec.Fips

namespace Sha1

/-! ## Words -/

theorem W_eq : Sha1.W = 2 ^ 32 := rfl

/-- The word for a number. -/
abbrev v (x : Nat) : Word := BitVec.ofNat 32 x

theorem v_mod (x : Nat) : v (x % Sha1.W) = v x := by
  apply BitVec.eq_of_toNat_eq
  simp [v, W_eq]

theorem v_toNat {x : Nat} (h : x < Sha1.W) : (v x).toNat = x := by
  simp only [v, BitVec.toNat_ofNat]
  exact Nat.mod_eq_of_lt h

theorem v_add (x y : Nat) : v (x + y) = v x + v y := BitVec.ofNat_add x y

theorem v_rotl {n x : Nat} (hn : n < 32) (h : x < Sha1.W) : v (rotl n x) = (v x).rotateLeft n := by
  apply BitVec.eq_of_toNat_eq
  rw [BitVec.toNat_rotateLeft, v_toNat h, Nat.mod_eq_of_lt hn]
  unfold rotl
  rw [v_toNat (Nat.mod_lt _ (by decide)), W_eq, Nat.or_mod_two_pow]
  congr 1
  refine Nat.mod_eq_of_lt (Nat.lt_of_le_of_lt ?_ h)
  rw [Nat.shiftRight_eq_div_pow]
  exact Nat.div_le_self _ _

theorem rotl_lt (n x : Nat) : rotl n x < Sha1.W := Nat.mod_lt _ (by decide)

theorem v_not (x : Nat) : v (not32 x) = ~~~ v x := by
  apply BitVec.eq_of_toNat_eq
  rw [BitVec.toNat_not]
  unfold not32
  have h : x % Sha1.W < Sha1.W := Nat.mod_lt _ (by decide)
  rw [v_toNat (by omega)]
  simp only [v, BitVec.toNat_ofNat, W_eq]

theorem xor_lt {x y : Nat} (hx : x < Sha1.W) (hy : y < Sha1.W) : x ^^^ y < Sha1.W := by
  rw [W_eq] at *; exact Nat.xor_lt_two_pow hx hy

/-! ## Rounds -/

structure Small (h : H) : Prop where
  a : h.a < Sha1.W
  b : h.b < Sha1.W
  c : h.c < Sha1.W
  d : h.d < Sha1.W
  e : h.e < Sha1.W

def five (h : H) : Five := ⟨v h.a, v h.b, v h.c, v h.d, v h.e⟩

theorem round_eq {h : H} (hs : Small h) (t w : Nat) :
    five (round h t w) = iteration (v w) t (five h) ∧ Small (round h t w) := by
  have hch : ∀ x y z : Word, (x &&& y) ||| (~~~ x &&& z) = (x &&& y) ^^^ (~~~ x &&& z) := by
    intro x y z
    ext i hi
    simp only [BitVec.getElem_or, BitVec.getElem_and, BitVec.getElem_not, BitVec.getElem_xor]
    cases x[i] <;> cases y[i] <;> cases z[i] <;> rfl
  have hmaj : ∀ x y z : Word, (x &&& y) ||| (x &&& z) ||| (y &&& z) = (x &&& y) ^^^ (x &&& z) ^^^ (y &&& z) := by
    intro x y z
    ext i hi
    simp only [BitVec.getElem_or, BitVec.getElem_and, BitVec.getElem_xor]
    cases x[i] <;> cases y[i] <;> cases z[i] <;> rfl
  constructor
  · unfold round iteration five f K
    by_cases h1 : t < 20
    · have h1' : t ≤ 19 := by omega
      simp only [if_pos h1, if_pos h1', v_mod, v_add, v_rotl (n := 5) (by decide) hs.a, v_rotl (n := 30) (by decide) hs.b, v,
        BitVec.ofNat_or, BitVec.ofNat_and, ← hch]
      have := v_not h.b
      simp only [v] at this
      rw [this]
    · have h1' : ¬ t ≤ 19 := by omega
      by_cases h2 : t < 40
      · have h2' : t ≤ 39 := by omega
        simp only [if_neg h1, if_neg h1', if_pos h2, if_pos h2', v_mod, v_add, v_rotl (n := 5) (by decide) hs.a,
          v_rotl (n := 30) (by decide) hs.b, v, BitVec.ofNat_xor]
      · have h2' : ¬ t ≤ 39 := by omega
        by_cases h3 : t < 60
        · have h3' : t ≤ 59 := by omega
          simp only [if_neg h1, if_neg h1', if_neg h2, if_neg h2', if_pos h3, if_pos h3', v_mod, v_add,
            v_rotl (n := 5) (by decide) hs.a, v_rotl (n := 30) (by decide) hs.b, v, BitVec.ofNat_or, BitVec.ofNat_and, ← hmaj]
        · have h3' : ¬ t ≤ 59 := by omega
          simp only [if_neg h1, if_neg h1', if_neg h2, if_neg h2', if_neg h3, if_neg h3', v_mod, v_add,
            v_rotl (n := 5) (by decide) hs.a, v_rotl (n := 30) (by decide) hs.b, v, BitVec.ofNat_xor]
  · unfold round
    exact ⟨Nat.mod_lt _ (by decide), hs.a, rotl_lt _ _, hs.c, hs.d⟩

theorem rounds_eq {blk : Nat → Word} {v0 : Five} : ∀ (ws : List Nat) (h : H) (t : Nat), Small h →
    five h = iterations blk v0 t → (∀ i, i < ws.length → v (ws.getD i 0) = Fips.W blk (t + i)) →
    five (rounds h t ws) = iterations blk v0 (t + ws.length) ∧ Small (rounds h t ws)
  | [], h, t, hs, he, _ => ⟨he, hs⟩
  | w :: ws, h, t, hs, he, hw => by
    obtain ⟨h1, h2⟩ := round_eq hs t w
    have h0 := hw 0 (by simp)
    simp only [List.getD_cons_zero, Nat.add_zero] at h0
    rw [rounds]
    have := rounds_eq (blk := blk) (v0 := v0) ws (round h t w) (t + 1) h2 (by rw [h1, he, h0]; rfl) fun i hi => by
      have := hw (i + 1) (by simp; omega)
      rw [List.getD_cons_succ] at this
      rw [this]
      congr 1
      omega
    rw [List.length_cons, show t + (ws.length + 1) = t + 1 + ws.length by omega]
    exact this

/-! ## The message schedule -/

/-- The first `t` words of the schedule, newest first. -/
def Schedule (blk : Nat → Word) (ws : List Nat) : Prop :=
  ∀ j, j < ws.length → ws.getD j 0 < Sha1.W ∧ v (ws.getD j 0) = Fips.W blk (ws.length - 1 - j)

theorem extend_eq {blk : Nat → Word} : ∀ (n : Nat) (ws : List Nat), 16 ≤ ws.length → Schedule blk ws →
    Schedule blk (extend n ws) ∧ (extend n ws).length = ws.length + n
  | 0, ws, _, h => ⟨h, rfl⟩
  | n + 1, ws, hl, h => by
    rw [extend]
    obtain ⟨a1, a2⟩ := h 2 (by omega)
    obtain ⟨b1, b2⟩ := h 7 (by omega)
    obtain ⟨c1, c2⟩ := h 13 (by omega)
    obtain ⟨d1, d2⟩ := h 15 (by omega)
    have hx := xor_lt (xor_lt (xor_lt a1 b1) c1) d1
    have := extend_eq (blk := blk) n (rotl 1 (ws.getD 2 0 ^^^ ws.getD 7 0 ^^^ ws.getD 13 0 ^^^ ws.getD 15 0) :: ws)
      (by simp; omega) fun j hj => by
      cases j with
      | zero =>
        refine ⟨by rw [List.getD_cons_zero]; exact rotl_lt _ _, ?_⟩
        rw [List.getD_cons_zero, v_rotl (by decide) hx]
        unfold Fips.W
        rw [dif_neg (by simp; omega)]
        simp only [List.length_cons, Nat.add_sub_cancel, Nat.sub_zero]
        have e : v (ws.getD 2 0 ^^^ ws.getD 7 0 ^^^ ws.getD 13 0 ^^^ ws.getD 15 0) =
            v (ws.getD 2 0) ^^^ v (ws.getD 7 0) ^^^ v (ws.getD 13 0) ^^^ v (ws.getD 15 0) := by
          simp only [v, BitVec.ofNat_xor]
        rw [e, a2, b2, c2, d2]
        rfl
      | succ j =>
        rw [List.getD_cons_succ]
        simp only [List.length_cons] at hj ⊢
        obtain ⟨e1, e2⟩ := h j (by omega)
        refine ⟨e1, ?_⟩
        rw [e2]
        congr 1
        omega
    refine ⟨this.1, ?_⟩
    rw [this.2, List.length_cons]
    omega

theorem getD_reverse (l : List Nat) (i : Nat) (h : i < l.length) : l.reverse.getD i 0 = l.getD (l.length - 1 - i) 0 := by
  rw [List.getD_eq_getElem?_getD, List.getD_eq_getElem?_getD, List.getElem?_reverse h]

theorem block_eq {blk : Nat → Word} {h : H} (hs : Small h) (ws : List Nat) (hl : ws.length = 16)
    (hw : ∀ j, j < 16 → ws.getD j 0 < Sha1.W ∧ v (ws.getD j 0) = blk j) :
    let r := iterations blk (five h) 80
    five (block h ws) = ⟨r.a + (five h).a, r.b + (five h).b, r.c + (five h).c, r.d + (five h).d, r.e + (five h).e⟩ ∧
      Small (block h ws) := by
  have hS : Schedule blk ws.reverse := by
    intro j hj
    rw [List.length_reverse] at hj ⊢
    rw [getD_reverse _ _ hj]
    obtain ⟨h1, h2⟩ := hw (ws.length - 1 - j) (by omega)
    refine ⟨h1, ?_⟩
    rw [h2]
    unfold Fips.W
    rw [dif_pos (by omega)]
  obtain ⟨h1, h2⟩ := extend_eq 64 ws.reverse (by simp [hl]) hS
  have hlen : (extend 64 ws.reverse).length = 80 := by rw [h2]; simp [hl]
  obtain ⟨h3, -⟩ := rounds_eq (blk := blk) (v0 := five h) (extend 64 ws.reverse).reverse h 0 hs rfl fun i hi => by
    rw [List.length_reverse] at hi
    rw [getD_reverse _ _ hi, (h1 _ (by omega)).2]
    congr 1
    omega
  rw [List.length_reverse, hlen] at h3
  intro r
  have hr : five (rounds h 0 (extend 64 ws.reverse).reverse) = r := h3
  constructor
  · unfold block
    rw [← hr]
    simp only [five, v_mod, v_add]
    simp only [BitVec.add_comm]
  · exact ⟨Nat.mod_lt _ (by decide), Nat.mod_lt _ (by decide), Nat.mod_lt _ (by decide), Nat.mod_lt _ (by decide),
      Nat.mod_lt _ (by decide)⟩

/-! ## Bits -/

theorem value_append (l l' : List Bool) : value (l ++ l') = value l * 2 ^ l'.length + value l' := by
  have key : ∀ (l : List Bool) (n : Nat), l.foldl (fun n b => 2 * n + b.toNat) n = n * 2 ^ l.length + value l := by
    intro l
    induction l with
    | nil => intro n; simp [value]
    | cons b l ih =>
      intro n
      simp only [List.foldl_cons, value, List.length_cons]
      rw [ih, ih (2 * 0 + b.toNat), Nat.pow_succ, Nat.mul_zero, Nat.zero_add, Nat.add_mul, Nat.mul_comm 2 n, Nat.mul_assoc,
        Nat.mul_comm 2, Nat.add_assoc]
  unfold value
  rw [List.foldl_append, key]
  rfl

theorem value_byte (b : UInt8) : value (bitsOfNat 8 b.toNat) = b.toNat := by
  have : ∀ n : Fin 256, value (bitsOfNat 8 n.val) = n.val := by decide +kernel
  exact this ⟨b.toNat, b.toNat_lt⟩

theorem bits_append (l l' : Bytes) : bits (l ++ l') = bits l ++ bits l' := by simp [bits]

theorem bits_length (l : Bytes) : (bits l).length = 8 * l.length := by
  induction l with
  | nil => rfl
  | cons b l ih => simp [bits, bitsOfNat] at ih ⊢; omega

theorem words_length : ∀ l : Bytes, (words l).length = l.length / 4
  | a :: b :: c :: d :: r => by rw [words, List.length_cons, words_length r]; simp; omega
  | [] => rfl
  | [_] => by simp [words]
  | [_, _] => by simp [words]
  | [_, _, _] => by simp [words]

theorem words_get : ∀ (l : Bytes) (j : Nat), j < l.length / 4 →
    (words l).getD j 0 < Sha1.W ∧ (words l).getD j 0 = value (((bits l).drop (32 * j)).take 32)
  | a :: b :: c :: d :: r, j, hj => by
    have h4 : bits (a :: b :: c :: d :: r) = bits [a, b, c, d] ++ bits r := by rw [← bits_append]; rfl
    have hl : (bits [a, b, c, d]).length = 32 := by rw [bits_length]; rfl
    rw [words]
    cases j with
    | zero =>
      rw [List.getD_cons_zero, Nat.mul_zero, List.drop_zero, h4, ← hl, List.take_left]
      have ha := value_byte a
      have hb := value_byte b
      have hc := value_byte c
      have hd := value_byte d
      have e : bits [a, b, c, d] = bitsOfNat 8 a.toNat ++ (bitsOfNat 8 b.toNat ++ (bitsOfNat 8 c.toNat ++ bitsOfNat 8 d.toNat)) := by
        simp [bits]
      rw [e]
      simp only [value_append, ha, hb, hc, hd, List.length_append]
      simp only [bitsOfNat, List.length_map, List.length_range, bytesWord]
      have := a.toNat_lt
      have := b.toNat_lt
      have := c.toNat_lt
      have := d.toNat_lt
      rw [W_eq]
      omega
    | succ j =>
      rw [List.getD_cons_succ]
      simp only [List.length_cons] at hj
      obtain ⟨h1, h2⟩ := words_get r j (by omega)
      refine ⟨h1, ?_⟩
      rw [h2, h4, show 32 * (j + 1) = (bits [a, b, c, d]).length + 32 * j by omega, List.drop_append,
        List.drop_eq_nil_of_le (as := bits [a, b, c, d]) (by omega), List.nil_append, Nat.add_sub_cancel_left]
  | [], j, hj => by simp at hj
  | [_], j, hj => by simp at hj
  | [_, _], j, hj => by simp at hj
  | [_, _, _], j, hj => by simp at hj

/-! ## Padding -/

theorem bitsOfNat_byte (x k : Nat) :
    bitsOfNat 8 (UInt8.ofNat (x >>> k % 256)).toNat = (List.range 8).map fun i => x.testBit (k + (8 - 1 - i)) := by
  unfold bitsOfNat
  refine List.map_congr_left fun i hi => ?_
  have hi := List.mem_range.mp hi
  have : (UInt8.ofNat (x >>> k % 256)).toNat = x >>> k % 2 ^ 8 := by simp
  rw [this, Nat.testBit_mod_two_pow, Nat.testBit_shiftRight, decide_eq_true (by omega), Bool.true_and]

theorem bitsOfNat_wordBytes (x : Nat) : bits (wordBytes x) = bitsOfNat 32 x := by
  have h0 := bitsOfNat_byte x 0
  rw [Nat.shiftRight_zero] at h0
  unfold bits wordBytes
  simp only [List.flatMap_cons, List.flatMap_nil, bitsOfNat_byte, h0]
  rfl

theorem bits_replicate (n : Nat) : bits (List.replicate n 0) = List.replicate (8 * n) false := by
  induction n with
  | zero => rfl
  | succ n ih =>
    rw [List.replicate_succ, show (0 : UInt8) :: List.replicate n 0 = [0] ++ List.replicate n 0 from rfl, bits_append, ih,
      show 8 * (n + 1) = 8 + 8 * n by omega, List.replicate_add]
    rfl

theorem bits_length64 (x : Nat) : bitsOfNat 64 x = bitsOfNat 32 (x / Sha1.W % Sha1.W) ++ bitsOfNat 32 (x % Sha1.W) := by
  unfold bitsOfNat
  rw [show (64 : Nat) = 32 + 32 from rfl, List.range_add, List.map_append, List.map_map, W_eq]
  congr 1
  · refine List.map_congr_left fun i hi => ?_
    have hi := List.mem_range.mp hi
    rw [Nat.testBit_mod_two_pow, Nat.testBit_div_two_pow, decide_eq_true (by omega), Bool.true_and]
    congr 1
    omega
  · refine List.map_congr_left fun i hi => ?_
    have hi := List.mem_range.mp hi
    rw [Nat.testBit_mod_two_pow, decide_eq_true (by omega), Bool.true_and]
    simp only [Function.comp]
    congr 1
    omega

theorem pad_padded (m : Bytes) : Padded (bits m) (bits (pad m)) := by
  refine ⟨7 + 8 * ((119 - m.length % 64) % 64), ?_, ?_, ?_⟩
  · rw [bits_length]; omega
  · intro j hj; rw [bits_length]; omega
  · unfold pad
    simp only [bits_append, bitsOfNat_wordBytes, bits_replicate, bits_length]
    rw [bits_length64 (8 * m.length), Nat.mul_comm m.length 8, List.replicate_add]
    have : bits [0x80] = [true] ++ List.replicate 7 false := by decide
    rw [this]
    simp

theorem padded_unique {m p p' : List Bool} (h : Padded m p) (h' : Padded m p') : p = p' := by
  obtain ⟨k, h1, h2, rfl⟩ := h
  obtain ⟨k', h1', h2', rfl⟩ := h'
  rcases Nat.lt_trichotomy k k' with h | rfl | h
  · exact absurd h1 (h2' k h)
  · rfl
  · exact absurd h1' (h2 k' h)

/-! ## Blocks -/

theorem blocks_eq (l : Bytes) (n : Nat) : ∀ (k i : Nat) (h : H), i + k = n → 64 * n ≤ l.length → Small h → five h = Fips.H (bits l) i →
    five (blocks k h ((words l).drop (16 * i))) = Fips.H (bits l) n ∧ Small (blocks k h ((words l).drop (16 * i)))
  | 0, i, h, hi, _, hs, he => by obtain rfl : i = n := hi; exact ⟨he, hs⟩
  | k + 1, i, h, hi, hn, hs, he => by
    rw [blocks]
    have hwl := words_length l
    have hb := block_eq (blk := M (bits l) i) hs (((words l).drop (16 * i)).take 16)
      (by rw [List.length_take, List.length_drop, hwl]; omega) fun j hj => by
      have e : (((words l).drop (16 * i)).take 16).getD j 0 = (words l).getD (16 * i + j) 0 := by
        rw [List.getD_eq_getElem?_getD, List.getElem?_take_of_lt hj, List.getElem?_drop, List.getD_eq_getElem?_getD]
      rw [e]
      obtain ⟨h1, h2⟩ := words_get l (16 * i + j) (by omega)
      refine ⟨h1, ?_⟩
      rw [h2]
      unfold M
      rw [show 32 * (16 * i + j) = 512 * i + 32 * j by omega]
    rw [List.drop_drop, show 16 * i + 16 = 16 * (i + 1) by omega]
    refine blocks_eq l n k (i + 1) _ (by omega) hn hb.2 ?_
    rw [hb.1, he]
    rfl

theorem bits_inj : ∀ {a b : Bytes}, bits a = bits b → a = b
  | [], [], _ => rfl
  | [], b :: l, h => by have := congrArg List.length h; simp [bits_length] at this
  | a :: l, [], h => by have := congrArg List.length h; simp [bits_length] at this
  | a :: l, b :: l', h => by
    have e : ∀ (x : UInt8) (l : Bytes), bits (x :: l) = bitsOfNat 8 x.toNat ++ bits l := fun x l => by simp [bits]
    rw [e, e] at h
    obtain ⟨h1, h2⟩ := List.append_inj h (by simp [bitsOfNat])
    have h3 := value_byte a
    rw [h1, value_byte b] at h3
    rw [UInt8.toNat_inj.mp h3, bits_inj h2]

end Sha1

/-- **C73.** The digest is the SHA-1 of the data, as defined by the standard, and nothing else is. -/
theorem C73_sha1 (m d : Bytes) : Fips.IsSha1 m d ↔ d = Sha1.digest m := by
  have key : Fips.IsSha1 m (Sha1.digest m) := by
    refine ⟨_, Sha1.pad_padded m, ?_⟩
    have hlen : (Sha1.pad m).length % 64 = 0 := by
      simp only [Sha1.pad, List.length_append, List.length_replicate, Sha1.wordBytes, List.length_cons, List.length_nil]
      omega
    have hn : (bits (Sha1.pad m)).length / 512 = (Sha1.pad m).length / 64 := by rw [Sha1.bits_length]; omega
    have hw : (Sha1.words (Sha1.pad m)).length / 16 = (Sha1.pad m).length / 64 := by rw [Sha1.words_length]; omega
    obtain ⟨h1, h2⟩ := Sha1.blocks_eq (Sha1.pad m) ((Sha1.pad m).length / 64) ((Sha1.pad m).length / 64) 0
      ⟨0x67452301, 0xEFCDAB89, 0x98BADCFE, 0x10325476, 0xC3D2E1F0⟩ (by omega) (by omega) ⟨by decide, by decide, by decide, by decide,
        by decide⟩ rfl
    rw [Nat.mul_zero, List.drop_zero] at h1 h2
    simp only
    rw [hn, ← h1]
    unfold Sha1.digest
    simp only [Sha1.bits_append, Sha1.bitsOfNat_wordBytes, hw, Sha1.five, List.flatMap_cons, List.flatMap_nil]
    rw [Sha1.v_toNat h2.a, Sha1.v_toNat h2.b, Sha1.v_toNat h2.c, Sha1.v_toNat h2.d, Sha1.v_toNat h2.e]
    simp
  constructor
  · rintro ⟨p, hp, h⟩
    obtain ⟨p', hp', h'⟩ := key
    obtain rfl := Sha1.padded_unique hp hp'
    exact Sha1.bits_inj (h.trans h'.symm)
  · rintro rfl; exact key

/-- **C73.** A recorded file is named by the SHA-1 of its contents, in lower-case hexadecimal digits. -/
theorem C73_recorded_name (dir : Path) (data : Bytes) (pl : Plan) (w w' : World)
    (h : writeData dir data pl w = (.ok (), w')) :
    ∃ name d, HasFile w'.fs (dir ++ [name]) data ∧ Fips.IsSha1 data d ∧ hexDecode name = some d ∧ name.length = 40 := by
  obtain ⟨name, h1, h2, h3, -⟩ := C01_record_stores_data dir data pl w w' h
  exact ⟨name, _, h1, (C73_sha1 _ _).mpr rfl, h3, h2⟩

/-- A published value: the SHA-1 of `abc`. -/
example : ∃ d, hexDecode c%"a9993e364706816aba3e25717850c26c9cd0d89d" = some d ∧ Fips.IsSha1 [97, 98, 99] d :=
  ⟨_, rfl, (C73_sha1 _ _).mpr (by decide +kernel)⟩

end TF
