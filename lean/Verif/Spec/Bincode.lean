import Verif.Spec.Postcard
import Verif.Spec.PostcardWire
import Verif.Model.Bincode

/-!
# The wire format of bincode, as a grammar

From docs/spec.md of bincode: which bytes are written for a value; which bytes are read as which value, and how many bytes
the decoder claims for it.
-/

namespace TF.Spec

/-- The number that `k` bytes stand for, the least significant one first. -/
inductive Little : Nat → Nat → Bytes → Prop
  | nil : Little 0 0 []
  | cons {k n : Nat} {r : Bytes} (x : UInt8) : Little k n r → Little (k + 1) (x.toNat + 256 * n) (x :: r)

/-- Bytes of a number of this width. -/
def octets : Wd → Nat
  | .w16 => 2
  | .w32 => 4
  | .w64 => 8
  | .w128 => 16

/-- The byte before a number of this width. -/
def tag : Wd → UInt8
  | .w16 => 251
  | .w32 => 252
  | .w64 => 253
  | .w128 => 254

/-- A number with the width it is written in; `none`: one byte. -/
inductive TaggedNum : Nat → Option Wd → Bytes → Prop
  | one (x : UInt8) : x.toNat ≤ 250 → TaggedNum x.toNat none [x]
  | more {n : Nat} {b : Bytes} (w : Wd) : Little (octets w) n b → TaggedNum n (some w) (tag w :: b)

/-- How many numbers are written in this width, or in a smaller one. -/
def capacity : Option Wd → Nat
  | none => 251
  | some w => 2 * half w

/-- In the smallest width: it fits in no smaller one. -/
def Tight (n : Nat) (b : Bytes) : Prop :=
  ∃ t, TaggedNum n t b ∧ ∀ t', n < capacity t' → capacity t ≤ capacity t'

mutual

/-- The bytes that are written for a value. -/
inductive BinWrites : SVal → Bytes → Prop
  | false : BinWrites (.bool .false) [0]
  | true : BinWrites (.bool .true) [1]
  | byte (x : UInt8) : BinWrites (.byte x) [x]
  | uint {n : Nat} {b : Bytes} : Tight n b → BinWrites (.uint n) b
  | int {z : Int} {n : Nat} {b : Bytes} : Zigzag z n → Tight n b → BinWrites (.int z) b
  | float (b : Bytes) : BinWrites (.float b) b
  | char (c : Char) : BinWrites (.char c) (utf8Encode [c])
  | string {h : Bytes} (s : Str) : Tight (utf8Encode s).length h → BinWrites (.string s) (h ++ utf8Encode s)
  | bytes {h : Bytes} (b : Bytes) : Tight b.length h → BinWrites (.bytes b) (h ++ b)
  | unit : BinWrites .unit []
  | none : BinWrites .none [0]
  | some {v : SVal} {b : Bytes} : BinWrites v b → BinWrites (.some v) (1 :: b)
  | seq {vs : SVals} {h b : Bytes} : Tight vs.length h → BinWritesAll vs b → BinWrites (.seq vs) (h ++ b)
  | tuple {vs : SVals} {b : Bytes} : BinWritesAll vs b → BinWrites (.tuple vs) b
  | variant {i : Nat} {v : SVal} {h b : Bytes} : Tight i h → BinWrites v b → BinWrites (.variant i v) (h ++ b)

/-- One after the other. -/
inductive BinWritesAll : SVals → Bytes → Prop
  | nil : BinWritesAll .nil []
  | cons {v : SVal} {r : SVals} {a b : Bytes} : BinWrites v a → BinWritesAll r b → BinWritesAll (.cons v r) (a ++ b)

end

/-- A number of a type, in any width that is not larger than the type's. -/
def BinNumber (w : Wd) (n : Nat) (b : Bytes) : Prop := ∃ t, TaggedNum n t b ∧ ∀ u, t = some u → octets u ≤ octets w

mutual

/-- The bytes that are read as a value of a type, and the number of bytes that are claimed for it. -/
inductive BinReads : Sch → SVal → Nat → Bytes → Prop
  | false : BinReads .bool (.bool .false) 1 [0]
  | true : BinReads .bool (.bool .true) 1 [1]
  | byte (x : UInt8) : BinReads .byte (.byte x) 1 [x]
  | uint {w : Wd} {n : Nat} {b : Bytes} : BinNumber w n b → BinReads (.uint w) (.uint n) (octets w) b
  | int {w : Wd} {z : Int} {n : Nat} {b : Bytes} : Zigzag z n → BinNumber w n b → BinReads (.int w) (.int z) (octets w) b
  | float {n : Nat} {b : Bytes} : b.length = n → BinReads (.float n) (.float b) n b
  | char (c : Char) : BinReads .char (.char c) (utf8Encode [c]).length (utf8Encode [c])
  | string {h : Bytes} (s : Str) : BinNumber .w64 (utf8Encode s).length h →
      BinReads .string (.string s) (8 + (utf8Encode s).length) (h ++ utf8Encode s)
  | bytes {h : Bytes} (b : Bytes) : BinNumber .w64 b.length h → BinReads .bytes (.bytes b) (8 + b.length) (h ++ b)
  | unit : BinReads .unit .unit 0 []
  | none (s : Sch) : BinReads (.option s) .none 1 [0]
  | some {s : Sch} {v : SVal} {k : Nat} {b : Bytes} : BinReads s v k b → BinReads (.option s) (.some v) (1 + k) (1 :: b)
  | seq {s : Sch} {vs : SVals} {k : Nat} {h b : Bytes} : BinNumber .w64 vs.length h → BinReadsMany s vs k b →
      BinReads (.seq s) (.seq vs) (8 + k) (h ++ b)
  | tuple {ss : Schs} {vs : SVals} {k : Nat} {b : Bytes} : BinReadsEach ss vs k b → BinReads (.tuple ss) (.tuple vs) k b
  | variant {ss : Schs} {i : Nat} {v : SVal} {k : Nat} {h b : Bytes} : BinNumber .w32 i h → BinReadsNth ss i v k b →
      BinReads (.enum ss) (.variant i v) (4 + k) (h ++ b)

inductive BinReadsMany : Sch → SVals → Nat → Bytes → Prop
  | nil (s : Sch) : BinReadsMany s .nil 0 []
  | cons {s : Sch} {v : SVal} {r : SVals} {k l : Nat} {a b : Bytes} : BinReads s v k a → BinReadsMany s r l b →
      BinReadsMany s (.cons v r) (k + l) (a ++ b)

inductive BinReadsEach : Schs → SVals → Nat → Bytes → Prop
  | nil : BinReadsEach .nil .nil 0 []
  | cons {s : Sch} {ss : Schs} {v : SVal} {r : SVals} {k l : Nat} {a b : Bytes} : BinReads s v k a →
      BinReadsEach ss r l b → BinReadsEach (.cons s ss) (.cons v r) (k + l) (a ++ b)

inductive BinReadsNth : Schs → Nat → SVal → Nat → Bytes → Prop
  | here {s : Sch} {v : SVal} {k : Nat} {b : Bytes} (ss : Schs) : BinReads s v k b → BinReadsNth (.cons s ss) 0 v k b
  | there {ss : Schs} {i : Nat} {v : SVal} {k : Nat} {b : Bytes} (s : Sch) : BinReadsNth ss i v k b →
      BinReadsNth (.cons s ss) (i + 1) v k b

end

/-- The sum over the elements of a sequence. -/
def total (f : SVal → Nat) : SVals → Nat
  | .nil => 0
  | .cons v r => f v + total f r

mutual

/-- What is claimed for a value of a type, however it is written. -/
def claimed : Sch → SVal → Nat
  | .bool, _ => 1
  | .byte, _ => 1
  | .uint w, _ => octets w
  | .int w, _ => octets w
  | .float n, _ => n
  | .char, .char c => (utf8Encode [c]).length
  | .string, .string s => 8 + (utf8Encode s).length
  | .bytes, .bytes b => 8 + b.length
  | .option _, .none => 1
  | .option s, .some v => 1 + claimed s v
  | .seq s, .seq vs => 8 + total (claimed s) vs
  | .tuple ss, .tuple vs => claimedEach ss vs
  | .enum ss, .variant i v => 4 + claimedNth ss i v
  | _, _ => 0

def claimedEach : Schs → SVals → Nat
  | .cons s ss, .cons v r => claimed s v + claimedEach ss r
  | _, _ => 0

def claimedNth : Schs → Nat → SVal → Nat
  | .cons s _, 0, v => claimed s v
  | .cons _ ss, i + 1, v => claimedNth ss i v
  | .nil, _, _ => 0

end

end TF.Spec
