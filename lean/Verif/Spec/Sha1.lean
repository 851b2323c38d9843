import Verif.Rust.Basic

/-!
# SHA-1 as FIPS 180-4 defines it

Sections 2.2, 4.1.1, 4.2.1, 5.1.1, 5.2.1, 5.3.1 and 6.1.2 of the standard: on bits and 32-bit words, with the indices of
the standard. The model (`Model/Sha1.lean`) is an implementation on bytes and natural numbers.
-/

namespace TF.Spec.Fips

abbrev Word := BitVec 32

/-- The `n` lowest bits of a number, most significant bit first. -/
def bitsOfNat (n x : Nat) : List Bool := (List.range n).map fun i => x.testBit (n - 1 - i)

/-- The bits of a message of bytes. -/
def bits (m : Bytes) : List Bool := m.flatMap fun b => bitsOfNat 8 b.toNat

/-- The number with these bits. -/
def value (l : List Bool) : Nat := l.foldl (fun n b => 2 * n + b.toNat) 0

/-- 5.1.1: append the bit `1`, the least number of zeros such that the length is 448 modulo 512, and the length of the
message as a 64-bit number. -/
def Padded (m p : List Bool) : Prop :=
  ∃ k, (m.length + 1 + k) % 512 = 448 ∧ (∀ j < k, (m.length + 1 + j) % 512 ≠ 448) ∧
    p = m ++ [true] ++ List.replicate k false ++ bitsOfNat 64 m.length

/-- 5.2.1: `M_j^(i)`, the blocks counted from 0. -/
def M (p : List Bool) (i j : Nat) : Word := BitVec.ofNat 32 (value ((p.drop (512 * i + 32 * j)).take 32))

/-- 4.1.1 -/
def f (t : Nat) (x y z : Word) : Word :=
  if t ≤ 19 then (x &&& y) ^^^ (~~~ x &&& z)
  else if t ≤ 39 then x ^^^ y ^^^ z
  else if t ≤ 59 then (x &&& y) ^^^ (x &&& z) ^^^ (y &&& z)
  else x ^^^ y ^^^ z

/-- 4.2.1 -/
def K (t : Nat) : Word :=
  if t ≤ 19 then 0x5a827999#32 else if t ≤ 39 then 0x6ed9eba1#32 else if t ≤ 59 then 0x8f1bbcdc#32 else 0xca62c1d6#32

/-- 6.1.2, step 1: the message schedule of a block. -/
def W (block : Nat → Word) (t : Nat) : Word :=
  if _ : t ≤ 15 then block t
  else (W block (t - 3) ^^^ W block (t - 8) ^^^ W block (t - 14) ^^^ W block (t - 16)).rotateLeft 1

/-- The variables `a` to `e`, or the five words of a hash value. -/
structure Five where
  a : Word
  b : Word
  c : Word
  d : Word
  e : Word

/-- 6.1.2, step 3: one iteration. -/
def iteration (w : Word) (t : Nat) (v : Five) : Five :=
  { a := v.a.rotateLeft 5 + f t v.b v.c v.d + v.e + K t + w
    b := v.a
    c := v.b.rotateLeft 30
    d := v.c
    e := v.d }

/-- 6.1.2, step 3: the first `n` iterations. -/
def iterations (block : Nat → Word) (v : Five) : Nat → Five
  | 0 => v
  | n + 1 => iteration (W block n) n (iterations block v n)

/-- `H^(i)`: 5.3.1 for the first, 6.1.2 step 4 for the others. -/
def H (p : List Bool) : Nat → Five
  | 0 => ⟨0x67452301#32, 0xefcdab89#32, 0x98badcfe#32, 0x10325476#32, 0xc3d2e1f0#32⟩
  | i + 1 =>
    let h := H p i
    let v := iterations (M p i) h 80
    ⟨v.a + h.a, v.b + h.b, v.c + h.c, v.d + h.d, v.e + h.e⟩

/-- `d` is the SHA-1 of the message `m`. -/
def IsSha1 (m d : Bytes) : Prop :=
  ∃ p, Padded (bits m) p ∧
    let h := H p (p.length / 512)
    bits d = [h.a, h.b, h.c, h.d, h.e].flatMap fun w => bitsOfNat 32 w.toNat

end TF.Spec.Fips
