import Verif.Model.Postcard

/-!
# Specification vocabulary for the default format
-/

namespace TF.Spec

/-- Half of the number of values of an integer type. -/
def half : Wd → Nat
  | .w16 => 32768
  | .w32 => 2147483648
  | .w64 => 9223372036854775808
  | .w128 => 170141183460469231731687303715884105728

mutual

/-- The value is one of a type with this schema. Lengths fit in `usize`. -/
inductive Conforms : SVal → Sch → Prop
  | bool (b : Bool) : Conforms (.bool b) .bool
  | byte (b : UInt8) : Conforms (.byte b) .byte
  | uint {n : Nat} {w : Wd} : n < 2 * half w → Conforms (.uint n) (.uint w)
  | int {z : Int} {w : Wd} : -(half w : Int) ≤ z → z < half w → Conforms (.int z) (.int w)
  | float {b : Bytes} {n : Nat} : b.length = n → Conforms (.float b) (.float n)
  | char (c : Char) : Conforms (.char c) .char
  | string {s : Str} : (utf8Encode s).length < 2 ^ 64 → Conforms (.string s) .string
  | bytes {b : Bytes} : b.length < 2 ^ 64 → Conforms (.bytes b) .bytes
  | unit : Conforms .unit .unit
  | none (s : Sch) : Conforms .none (.option s)
  | some {v : SVal} {s : Sch} : Conforms v s → Conforms (.some v) (.option s)
  | seq {vs : SVals} {s : Sch} : vs.length < 2 ^ 64 → AllConform vs s → Conforms (.seq vs) (.seq s)
  | tuple {vs : SVals} {ss : Schs} : EachConforms vs ss → Conforms (.tuple vs) (.tuple ss)
  | variant {i : Nat} {v : SVal} {ss : Schs} : i < 2 ^ 32 → NthConforms v ss i → Conforms (.variant i v) (.enum ss)

inductive AllConform : SVals → Sch → Prop
  | nil (s : Sch) : AllConform .nil s
  | cons {v : SVal} {r : SVals} {s : Sch} : Conforms v s → AllConform r s → AllConform (.cons v r) s

inductive EachConforms : SVals → Schs → Prop
  | nil : EachConforms .nil .nil
  | cons {v : SVal} {r : SVals} {s : Sch} {ss : Schs} : Conforms v s → EachConforms r ss →
      EachConforms (.cons v r) (.cons s ss)

inductive NthConforms : SVal → Schs → Nat → Prop
  | here {v : SVal} {s : Sch} (ss : Schs) : Conforms v s → NthConforms v (.cons s ss) 0
  | there {v : SVal} {ss : Schs} {i : Nat} (s : Sch) : NthConforms v ss i → NthConforms v (.cons s ss) (i + 1)

end

mutual

/-- Numbers of bytes in the parts of a value that go through the sliding buffer: floats, characters, strings, and byte
buffers. -/
def chunks : SVal → List Nat
  | .float b => [b.length]
  | .char c => [(encodeChar c).length]
  | .string s => [(utf8Encode s).length]
  | .bytes b => [b.length]
  | .some v => chunks v
  | .seq vs => chunksAll vs
  | .tuple vs => chunksAll vs
  | .variant _ v => chunks v
  | _ => []

def chunksAll : SVals → List Nat
  | .nil => []
  | .cons v r => chunks v ++ chunksAll r

end

mutual

/-- All lengths fit in `usize`, as they do in a computer's memory. -/
def Small : SVal → Prop
  | .string s => (utf8Encode s).length < 2 ^ 64
  | .bytes b => b.length < 2 ^ 64
  | .some v => Small v
  | .seq vs => vs.length < 2 ^ 64 ∧ SmallAll vs
  | .tuple vs => SmallAll vs
  | .variant _ v => Small v
  | _ => True

def SmallAll : SVals → Prop
  | .nil => True
  | .cons v r => Small v ∧ SmallAll r

end

/-- What fits in a buffer of `buf` bytes: with the policy `temp`, values none of whose parts are larger; with the policy
`keep`, values whose parts are not larger together. -/
def Fits (p : Policy) (v : SVal) (buf : Nat) : Prop :=
  match p with
  | .temp => ∀ n ∈ chunks v, n ≤ buf
  | .keep => (chunks v).sum ≤ buf

end TF.Spec
