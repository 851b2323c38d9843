import Verif.Rust.Utf8
import Verif.Lemmas.Utf8

/-!
# The default serialisation format: internal/src/serde_format.rs:33-70 with postcard

`serialize` and `deserialize` hand over to postcard 1.1.3, whose source is not part of the repository. Its wire format is
modelled from its specification (postcard.jamesmunns.com/wire-format): LEB128 integers, zigzag, lengths before strings and
sequences, variant numbers. Values are those of serde's data model; what is read is directed by a schema, that is, by the
sequence of `deserialize_*` calls that the type makes.

Structs and tuples are tuples; newtype structs are their content; maps are sequences of pairs, in the order of iteration;
`i8` is a byte. Sequences whose length is not known when they are serialised (for which postcard fails) are not modelled.
`usize` is 64 bits.
-/

namespace TF

/-- Widths of integers with variable-length encodings. -/
inductive Wd where
  | w16 | w32 | w64 | w128
  deriving DecidableEq

def Wd.bits : Wd → Nat
  | .w16 => 16
  | .w32 => 32
  | .w64 => 64
  | .w128 => 128

mutual

/-- What a type asks the deserialiser for. -/
inductive Sch where
  | bool
  | byte
  | uint (w : Wd)
  | int (w : Wd)
  /-- `f32` (4 bytes) or `f64` (8 bytes). -/
  | float (size : Nat)
  | char
  | string
  | bytes
  | unit
  | option (s : Sch)
  | seq (s : Sch)
  | tuple (ss : Schs)
  /-- The content of each variant. -/
  | enum (ss : Schs)

inductive Schs where
  | nil
  | cons (s : Sch) (r : Schs)

end

mutual

/-- Values of serde's data model. -/
inductive SVal where
  | bool (b : Bool)
  | byte (b : UInt8)
  | uint (n : Nat)
  | int (z : Int)
  | float (b : Bytes)
  | char (c : Char)
  | string (s : Str)
  | bytes (b : Bytes)
  | unit
  | none
  | some (v : SVal)
  | seq (vs : SVals)
  | tuple (vs : SVals)
  | variant (i : Nat) (v : SVal)

inductive SVals where
  | nil
  | cons (v : SVal) (r : SVals)

end

deriving instance DecidableEq for Sch, Schs
deriving instance DecidableEq for SVal, SVals

def SVals.length : SVals → Nat
  | .nil => 0
  | .cons _ r => r.length + 1

/-! ## Writing -/

/-- LEB128, at most `fuel + 1` bytes. -/
def varintF : Nat → Nat → Bytes
  | 0, n => [UInt8.ofNat n]
  | f + 1, n => if n < 128 then [UInt8.ofNat n] else UInt8.ofNat (n % 128 + 128) :: varintF f (n / 128)

/-- The widest integer takes 19 bytes. -/
def varint (n : Nat) : Bytes := varintF 18 n

def zigzag : Int → Nat
  | .ofNat n => 2 * n
  | .negSucc n => 2 * n + 1

mutual

/-- `postcard::to_io` (internal/src/serde_format.rs:50). -/
def SVal.enc : SVal → Bytes
  | .bool b => [if b then 1 else 0]
  | .byte b => [b]
  | .uint n => varint n
  | .int z => varint (zigzag z)
  | .float b => b
  | .char c => varint (encodeChar c).length ++ encodeChar c
  | .string s => varint (utf8Encode s).length ++ utf8Encode s
  | .bytes b => varint b.length ++ b
  | .unit => []
  | .none => [0]
  | .some v => 1 :: v.enc
  | .seq vs => varint vs.length ++ vs.enc
  | .tuple vs => vs.enc
  | .variant i v => varint i ++ v.enc

def SVals.enc : SVals → Bytes
  | .nil => []
  | .cons v r => v.enc ++ r.enc

end

/-! ## Reading

The state is the free part of the sliding buffer and the rest of the input. -/

def varintMax (bits : Nat) : Nat := (bits + 6) / 7

def lastByteMax (bits : Nat) : Nat := 2 ^ (bits % 7) - 1

/-- `try_take_varint_*`: `fuel` more bytes may follow, `i` have been read. -/
def takeVarintF (bits : Nat) : Nat → Nat → Nat → Bytes → Option (Nat × Bytes)
  | 0, _, _, _ => none
  | _ + 1, _, _, [] => none
  | f + 1, i, out, b :: r =>
    let out := out + b.toNat % 128 * 128 ^ i
    if b.toNat < 128 then if f = 0 ∧ lastByteMax bits < b.toNat then none else some (out, r)
    else takeVarintF bits f (i + 1) out r

def takeVarint (bits : Nat) (b : Bytes) : Option (Nat × Bytes) := takeVarintF bits (varintMax bits) 0 0 b

def unzigzag (n : Nat) : Int := if n % 2 = 0 then .ofNat (n / 2) else .negSucc (n / 2)

/-- Whether what is taken from the input stays in the buffer until the end (`try_take_n`, for data that is borrowed) or
not (`try_take_n_temp`). The types are `DeserializeOwned`. postcard 1.1 uses the latter for floats, characters, strings and
byte buffers, earlier versions the former. -/
inductive Policy where
  | temp | keep
  deriving DecidableEq

/-- Free part of the buffer after `n` bytes are taken, if there is room. -/
def Policy.take (p : Policy) (n buf : Nat) : Option Nat :=
  if n ≤ buf then some (match p with | .temp => buf | .keep => buf - n) else none

/-- `try_take_n`: through the buffer, with `read_exact`. -/
def takeN (p : Policy) (n buf : Nat) (b : Bytes) : Option (Bytes × Nat × Bytes) := do
  let buf ← p.take n buf
  if n ≤ b.length then some (b.take n, buf, b.drop n) else none

/-- The elements of a sequence. -/
def decN (d : Nat → Bytes → Option (SVal × Nat × Bytes)) : Nat → Nat → Bytes → Option (SVals × Nat × Bytes)
  | 0, buf, b => some (.nil, buf, b)
  | n + 1, buf, b => do
    let (v, buf, b) ← d buf b
    let (vs, buf, b) ← decN d n buf b
    some (.cons v vs, buf, b)

mutual

/-- `T::deserialize` with postcard's deserialiser. -/
def Sch.dec (p : Policy) : Sch → Nat → Bytes → Option (SVal × Nat × Bytes)
  | .bool, buf, b =>
    match b with
    | 0 :: r => some (.bool false, buf, r)
    | 1 :: r => some (.bool true, buf, r)
    | _ => none
  | .byte, buf, b =>
    match b with
    | x :: r => some (.byte x, buf, r)
    | [] => none
  | .uint w, buf, b => do
    let (n, b) ← takeVarint w.bits b
    some (.uint n, buf, b)
  | .int w, buf, b => do
    let (n, b) ← takeVarint w.bits b
    some (.int (unzigzag n), buf, b)
  | .float n, buf, b => do
    let (x, buf, b) ← takeN p n buf b
    some (.float x, buf, b)
  | .char, buf, b => do
    let (n, b) ← takeVarint 64 b
    if n ≤ 4 then
      let (x, buf, b) ← takeN p n buf b
      match utf8Decode x with
      | some (c :: _) => some (.char c, buf, b)
      | _ => none
    else none
  | .string, buf, b => do
    let (n, b) ← takeVarint 64 b
    let (x, buf, b) ← takeN p n buf b
    let s ← utf8Decode x
    some (.string s, buf, b)
  | .bytes, buf, b => do
    let (n, b) ← takeVarint 64 b
    let (x, buf, b) ← takeN p n buf b
    some (.bytes x, buf, b)
  | .unit, buf, b => some (.unit, buf, b)
  | .option s, buf, b =>
    match b with
    | 0 :: r => some (.none, buf, r)
    | 1 :: r => do
      let (v, buf, b) ← s.dec p buf r
      some (.some v, buf, b)
    | _ => none
  | .seq s, buf, b => do
    let (n, b) ← takeVarint 64 b
    let (vs, buf, b) ← decN (s.dec p) n buf b
    some (.seq vs, buf, b)
  | .tuple ss, buf, b => do
    let (vs, buf, b) ← ss.decAll p buf b
    some (.tuple vs, buf, b)
  | .enum ss, buf, b => do
    let (i, b) ← takeVarint 32 b
    let (v, buf, b) ← ss.decNth p i buf b
    some (.variant i v, buf, b)

/-- The components of a tuple. -/
def Schs.decAll (p : Policy) : Schs → Nat → Bytes → Option (SVals × Nat × Bytes)
  | .nil, buf, b => some (.nil, buf, b)
  | .cons s r, buf, b => do
    let (v, buf, b) ← s.dec p buf b
    let (vs, buf, b) ← r.decAll p buf b
    some (.cons v vs, buf, b)

/-- The content of variant `i`. -/
def Schs.decNth (p : Policy) : Schs → Nat → Nat → Bytes → Option (SVal × Nat × Bytes)
  | .nil, _, _, _ => none
  | .cons s _, 0, buf, b => s.dec p buf b
  | .cons _ r, i + 1, buf, b => r.decNth p i buf b

end

/-- internal/src/serde_format.rs:10-11 -/
def slidingBufferSize : Nat := 2048

/-- internal/src/serde_format.rs:33-54 `serialize`, default format. -/
def postSerialize (v : SVal) : Bytes := v.enc

/-- internal/src/serde_format.rs:56-70 `deserialize`, default format. -/
def postDeserialize (p : Policy) (s : Sch) (b : Bytes) : Option SVal := (s.dec p slidingBufferSize b).map (·.1)

end TF
