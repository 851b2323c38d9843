import Verif.Rust.Basic

/-!
# UTF-8

Encoding and strict decoding (`str::as_bytes`, `std::str::from_utf8`, `BufRead::lines`).
-/

namespace TF

/-- UTF-8 encoding of one scalar value. -/
def encodeChar (c : Char) : Bytes :=
  let n := c.toNat
  if n < 0x80 then [UInt8.ofNat n]
  else if n < 0x800 then [UInt8.ofNat (0xC0 + n / 64), UInt8.ofNat (0x80 + n % 64)]
  else if n < 0x10000 then
    [UInt8.ofNat (0xE0 + n / 4096), UInt8.ofNat (0x80 + n / 64 % 64), UInt8.ofNat (0x80 + n % 64)]
  else
    [UInt8.ofNat (0xF0 + n / 262144), UInt8.ofNat (0x80 + n / 4096 % 64),
     UInt8.ofNat (0x80 + n / 64 % 64), UInt8.ofNat (0x80 + n % 64)]

/-- `str::as_bytes`. -/
def utf8Encode (s : Str) : Bytes := s.flatMap encodeChar

/-- A continuation byte's payload. -/
def cont (b : UInt8) : Option Nat :=
  if 0x80 ≤ b.toNat ∧ b.toNat < 0xC0 then some (b.toNat - 0x80) else none

/-- A scalar value from its number, with the lower bound that excludes overlong forms. -/
def scalar (lo n : Nat) : Option Char :=
  if lo ≤ n ∧ n.isValidChar then some (Char.ofNat n) else none

/-- Decode the first character. -/
def decodeOne : Bytes → Option (Char × Bytes)
  | [] => none
  | a :: r =>
    let x := a.toNat
    if x < 0x80 then some (Char.ofNat x, r)
    else if x < 0xC0 then none
    else if x < 0xE0 then
      match r with
      | b :: r => do
        let y ← cont b
        let c ← scalar 0x80 ((x - 0xC0) * 64 + y)
        some (c, r)
      | _ => none
    else if x < 0xF0 then
      match r with
      | b :: b' :: r => do
        let y ← cont b
        let z ← cont b'
        let c ← scalar 0x800 ((x - 0xE0) * 4096 + y * 64 + z)
        some (c, r)
      | _ => none
    else if x < 0xF8 then
      match r with
      | b :: b' :: b'' :: r => do
        let y ← cont b
        let z ← cont b'
        let u ← cont b''
        let c ← scalar 0x10000 ((x - 0xF0) * 262144 + y * 4096 + z * 64 + u)
        some (c, r)
      | _ => none
    else none

/-- Decode with fuel (at most one character per byte). -/
def decodeFuel : Nat → Bytes → Option Str
  | _, [] => some []
  | 0, _ :: _ => none
  | n + 1, b =>
    match decodeOne b with
    | some (c, r) => (decodeFuel n r).map (c :: ·)
    | none => none

/-- `std::str::from_utf8(b).ok()`. -/
def utf8Decode (b : Bytes) : Option Str := decodeFuel b.length b

end TF
