import Verif.Rust.Basic

/-!
# SHA-1 and hexadecimal encoding

Model of the external calls `Sha1::digest` (crate `sha-1`) and `hex::encode` (crate `hex`) made in
runtime/src/lib.rs:191-194. Written from the standard (FIPS 180-4) over natural numbers modulo 2^32.
`Props/Sha1.lean` proves that it is the function of the standard (C73); the example at the end checks it on published
test vectors.
-/

namespace TF.Sha1

def W : Nat := 4294967296

def rotl (n x : Nat) : Nat := ((x <<< n) ||| (x >>> (32 - n))) % W

def not32 (x : Nat) : Nat := W - 1 - x % W

/-- Big-endian bytes of a word. -/
def wordBytes (x : Nat) : Bytes :=
  [UInt8.ofNat (x >>> 24 % 256), UInt8.ofNat (x >>> 16 % 256), UInt8.ofNat (x >>> 8 % 256),
   UInt8.ofNat (x % 256)]

def bytesWord (a b c d : UInt8) : Nat :=
  a.toNat * 16777216 + b.toNat * 65536 + c.toNat * 256 + d.toNat

/-- Padding: 0x80, zeros, the length in bits as 64-bit big-endian number. -/
def pad (m : Bytes) : Bytes :=
  let bits := m.length * 8
  m ++ [0x80] ++ List.replicate ((119 - m.length % 64) % 64) 0 ++
    wordBytes (bits / W % W) ++ wordBytes (bits % W)

def words : Bytes → List Nat
  | a :: b :: c :: d :: r => bytesWord a b c d :: words r
  | _ => []

/-- Message schedule: the last 16 words, newest first, extended `n` times; all words, newest first. -/
def extend : Nat → List Nat → List Nat
  | 0, ws => ws
  | n + 1, ws =>
    let w := rotl 1 (ws.getD 2 0 ^^^ ws.getD 7 0 ^^^ ws.getD 13 0 ^^^ ws.getD 15 0)
    extend n (w :: ws)

structure H where
  a : Nat
  b : Nat
  c : Nat
  d : Nat
  e : Nat

def round (h : H) (t w : Nat) : H :=
  let (f, k) :=
    if t < 20 then ((h.b &&& h.c) ||| (not32 h.b &&& h.d), 0x5A827999)
    else if t < 40 then (h.b ^^^ h.c ^^^ h.d, 0x6ED9EBA1)
    else if t < 60 then ((h.b &&& h.c) ||| (h.b &&& h.d) ||| (h.c &&& h.d), 0x8F1BBCDC)
    else (h.b ^^^ h.c ^^^ h.d, 0xCA62C1D6)
  ⟨(rotl 5 h.a + f + h.e + k + w) % W, h.a, rotl 30 h.b, h.c, h.d⟩

def rounds : H → Nat → List Nat → H
  | h, _, [] => h
  | h, t, w :: ws => rounds (round h t w) (t + 1) ws

def block (h : H) (ws : List Nat) : H :=
  let r := rounds h 0 (extend 64 ws.reverse).reverse
  ⟨(h.a + r.a) % W, (h.b + r.b) % W, (h.c + r.c) % W, (h.d + r.d) % W, (h.e + r.e) % W⟩

def blocks : Nat → H → List Nat → H
  | 0, h, _ => h
  | n + 1, h, ws => blocks n (block h (ws.take 16)) (ws.drop 16)

/-- `Sha1::digest(data)`. -/
def digest (m : Bytes) : Bytes :=
  let ws := words (pad m)
  let h := blocks (ws.length / 16) ⟨0x67452301, 0xEFCDAB89, 0x98BADCFE, 0x10325476, 0xC3D2E1F0⟩ ws
  wordBytes h.a ++ wordBytes h.b ++ wordBytes h.c ++ wordBytes h.d ++ wordBytes h.e

def hexDigit (n : Nat) : Char :=
  if n < 10 then Char.ofNat (48 + n) else Char.ofNat (87 + n)

/-- `hex::encode(bytes)`: two lowercase digits per byte, high nibble first. -/
def hexEncode : Bytes → Str
  | [] => []
  | b :: r => hexDigit (b.toNat / 16) :: hexDigit (b.toNat % 16) :: hexEncode r

end TF.Sha1

namespace TF

/-- The file name given to data: `hex::encode(Sha1::digest(data))`.
Models runtime/src/lib.rs:191-194. -/
def fileName (data : Bytes) : Str := Sha1.hexEncode (Sha1.digest data)

-- The published test vectors for "" and "abc" (a test of the model, not a proof about the code).
example : fileName [] = c%"da39a3ee5e6b4b0d3255bfef95601890afd80709" := by decide +kernel
example : fileName [97, 98, 99] = c%"a9993e364706816aba3e25717850c26c9cd0d89d" := by
  decide +kernel

-- Keep the elaborator from computing hashes.
attribute [irreducible] fileName Sha1.digest

end TF
