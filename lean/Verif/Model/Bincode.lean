import Verif.Model.Postcard

/-!
# The other serialisation format: internal/src/serde_format.rs:33-70 with the feature `__serde_bincode`

`serialize` and `deserialize` hand over to bincode 2.0.1, configuration `standard()` with a limit. Its source is not part of
the repository. Its wire format is modelled from its specification (docs/spec.md of bincode): little endian; numbers below
251 in one byte, others after a byte that tells their size; zigzag for signed numbers; lengths before strings and sequences;
characters in UTF-8 without a length.

The limit is on what the decoder claims before it reads: for a number, the size of its type, however many bytes it takes in
the file; for strings and byte buffers, eight bytes for the length, and their size; for other sequences and for maps, eight
bytes for the length; for variants, four bytes for their number. The encoder has no limit.

Schemas and values are those of `Model/Postcard.lean`, with the same simplifications.
-/

namespace TF

/-- Little endian, `k` bytes. -/
def leBytes : Nat → Nat → Bytes
  | 0, _ => []
  | k + 1, n => UInt8.ofNat (n % 256) :: leBytes k (n / 256)

def leValue : Bytes → Nat
  | [] => 0
  | b :: r => b.toNat + 256 * leValue r

/-! ## Writing -/

/-- `varint_encode_*`. -/
def binVarint (n : Nat) : Bytes :=
  if n ≤ 250 then [UInt8.ofNat n]
  else if n < 2 ^ 16 then 251 :: leBytes 2 n
  else if n < 2 ^ 32 then 252 :: leBytes 4 n
  else if n < 2 ^ 64 then 253 :: leBytes 8 n
  else 254 :: leBytes 16 n

mutual

/-- `bincode::serde::encode_to_vec` (internal/src/serde_format.rs:45-46). -/
def SVal.benc : SVal → Bytes
  | .bool b => [if b then 1 else 0]
  | .byte b => [b]
  | .uint n => binVarint n
  | .int z => binVarint (zigzag z)
  | .float b => b
  | .char c => encodeChar c
  | .string s => binVarint (utf8Encode s).length ++ utf8Encode s
  | .bytes b => binVarint b.length ++ b
  | .unit => []
  | .none => [0]
  | .some v => 1 :: v.benc
  | .seq vs => binVarint vs.length ++ vs.benc
  | .tuple vs => vs.benc
  | .variant i v => binVarint i ++ v.benc

def SVals.benc : SVals → Bytes
  | .nil => []
  | .cons v r => v.benc ++ r.benc

end

/-! ## Reading

The state is the number of bytes claimed so far and the rest of the input. -/

/-- internal/src/serde_format.rs:4-5 -/
def byteLimit : Nat := 1024 * 1024 * 1024

/-- `claim_bytes_read`. -/
def claim (lim n used : Nat) : Option Nat := if used + n ≤ lim then some (used + n) else none

/-- `Reader::read`: `read_exact`. -/
def takeExact (n : Nat) (b : Bytes) : Option (Bytes × Bytes) := if n ≤ b.length then some (b.take n, b.drop n) else none

def takeLe (k : Nat) (b : Bytes) : Option (Nat × Bytes) := do
  let (x, r) ← takeExact k b
  some (leValue x, r)

/-- `varint_decode_*` for a type of `bits` bits: sizes beyond the type's are errors, and so is 255. -/
def takeBinVarint (bits : Nat) : Bytes → Option (Nat × Bytes)
  | [] => none
  | b :: r =>
    if b.toNat ≤ 250 then some (b.toNat, r)
    else if b = 251 then if 16 ≤ bits then takeLe 2 r else none
    else if b = 252 then if 32 ≤ bits then takeLe 4 r else none
    else if b = 253 then if 64 ≤ bits then takeLe 8 r else none
    else if b = 254 then if 128 ≤ bits then takeLe 16 r else none
    else none

/-- Claim the size of the type, then read. -/
def takeNum (lim bits used : Nat) (b : Bytes) : Option (Nat × Nat × Bytes) := do
  let used ← claim lim (bits / 8) used
  let (n, r) ← takeBinVarint bits b
  some (n, used, r)

/-- Claim `n` bytes and read them. -/
def takeClaimed (lim n used : Nat) (b : Bytes) : Option (Bytes × Nat × Bytes) := do
  let used ← claim lim n used
  let (x, r) ← takeExact n b
  some (x, used, r)

/-- `utf8_char_width`: by the first byte; zero if no character begins with it. -/
def charWidth (b : UInt8) : Nat :=
  if b.toNat < 0x80 then 1
  else if b.toNat < 0xC2 then 0
  else if b.toNat < 0xE0 then 2
  else if b.toNat < 0xF0 then 3
  else if b.toNat < 0xF5 then 4
  else 0

/-- `char::decode`. -/
def takeChar (lim used : Nat) : Bytes → Option (Char × Nat × Bytes)
  | [] => none
  | b :: r =>
    let width := charWidth b
    if width = 0 then none
    else do
      let used ← claim lim width used
      if width = 1 then some (Char.ofNat b.toNat, used, r)
      else
        let (x, r) ← takeExact (width - 1) r
        match utf8Decode (b :: x) with
        | some (c :: _) => some (c, used, r)
        | _ => none

mutual

/-- `T::deserialize` with bincode's deserialiser. -/
def Sch.bdec (lim : Nat) : Sch → Nat → Bytes → Option (SVal × Nat × Bytes)
  | .bool, used, b => do
    let (x, used, b) ← takeClaimed lim 1 used b
    match x with
    | [0] => some (.bool false, used, b)
    | [1] => some (.bool true, used, b)
    | _ => none
  | .byte, used, b => do
    let (x, used, b) ← takeClaimed lim 1 used b
    match x with
    | [x] => some (.byte x, used, b)
    | _ => none
  | .uint w, used, b => do
    let (n, used, b) ← takeNum lim w.bits used b
    some (.uint n, used, b)
  | .int w, used, b => do
    let (n, used, b) ← takeNum lim w.bits used b
    some (.int (unzigzag n), used, b)
  | .float n, used, b => do
    let (x, used, b) ← takeClaimed lim n used b
    some (.float x, used, b)
  | .char, used, b => do
    let (c, used, b) ← takeChar lim used b
    some (.char c, used, b)
  | .string, used, b => do
    let (n, used, b) ← takeNum lim 64 used b
    let (x, used, b) ← takeClaimed lim n used b
    let s ← utf8Decode x
    some (.string s, used, b)
  | .bytes, used, b => do
    let (n, used, b) ← takeNum lim 64 used b
    let (x, used, b) ← takeClaimed lim n used b
    some (.bytes x, used, b)
  | .unit, used, b => some (.unit, used, b)
  | .option s, used, b => do
    let (x, used, b) ← takeClaimed lim 1 used b
    match x with
    | [0] => some (.none, used, b)
    | [1] => do
      let (v, used, b) ← s.bdec lim used b
      some (.some v, used, b)
    | _ => none
  | .seq s, used, b => do
    let (n, used, b) ← takeNum lim 64 used b
    let (vs, used, b) ← decN (s.bdec lim) n used b
    some (.seq vs, used, b)
  | .tuple ss, used, b => do
    let (vs, used, b) ← ss.bdecAll lim used b
    some (.tuple vs, used, b)
  | .enum ss, used, b => do
    let (i, used, b) ← takeNum lim 32 used b
    let (v, used, b) ← ss.bdecNth lim i used b
    some (.variant i v, used, b)

/-- The components of a tuple. -/
def Schs.bdecAll (lim : Nat) : Schs → Nat → Bytes → Option (SVals × Nat × Bytes)
  | .nil, used, b => some (.nil, used, b)
  | .cons s r, used, b => do
    let (v, used, b) ← s.bdec lim used b
    let (vs, used, b) ← r.bdecAll lim used b
    some (.cons v vs, used, b)

/-- The content of variant `i`. -/
def Schs.bdecNth (lim : Nat) : Schs → Nat → Nat → Bytes → Option (SVal × Nat × Bytes)
  | .nil, _, _, _ => none
  | .cons s _, 0, used, b => s.bdec lim used b
  | .cons _ r, i + 1, used, b => r.bdecNth lim i used b

end

/-- internal/src/serde_format.rs:33-47 `serialize`. -/
def binSerialize (v : SVal) : Bytes := v.benc

/-- internal/src/serde_format.rs:56-61 `deserialize`. -/
def binDeserialize (s : Sch) (b : Bytes) : Option SVal := (s.bdec byteLimit 0 b).map (·.1)

end TF
