import Verif.Spec.Postcard

/-!
# The wire format of the default serialisation format, as a grammar

From the specification of postcard (postcard.jamesmunns.com/wire-format): which bytes are written for a value, and which
bytes are read as which value.
-/

namespace TF.Spec

/-- LEB128: seven bits per byte, the least significant first; all bytes but the last have their highest bit set. -/
inductive Leb : Nat → Bytes → Prop
  | last (x : UInt8) : x.toNat < 128 → Leb x.toNat [x]
  | more {n : Nat} {r : Bytes} (x : UInt8) : 128 ≤ x.toNat → Leb n r → Leb (x.toNat - 128 + 128 * n) (x :: r)

/-- In the shortest way: the last byte is not a useless zero. -/
def Shortest (n : Nat) (b : Bytes) : Prop := Leb n b ∧ (b.getLast? = some 0 → b = [0])

/-- Zigzag: 0, -1, 1, -2, 2, … -/
def Zigzag (z : Int) (n : Nat) : Prop := (0 ≤ z ∧ (n : Int) = 2 * z) ∨ (z < 0 ∧ (n : Int) = -2 * z - 1)

/-- The most bytes that a number of this width takes. -/
def maxBytes : Wd → Nat
  | .w16 => 3
  | .w32 => 5
  | .w64 => 10
  | .w128 => 19

mutual

/-- The bytes that are written for a value. -/
inductive Writes : SVal → Bytes → Prop
  | false : Writes (.bool .false) [0]
  | true : Writes (.bool .true) [1]
  | byte (x : UInt8) : Writes (.byte x) [x]
  | uint {n : Nat} {b : Bytes} : Shortest n b → Writes (.uint n) b
  | int {z : Int} {n : Nat} {b : Bytes} : Zigzag z n → Shortest n b → Writes (.int z) b
  | float (b : Bytes) : Writes (.float b) b
  | char {h : Bytes} (c : Char) : Shortest (utf8Encode [c]).length h → Writes (.char c) (h ++ utf8Encode [c])
  | string {h : Bytes} (s : Str) : Shortest (utf8Encode s).length h → Writes (.string s) (h ++ utf8Encode s)
  | bytes {h : Bytes} (b : Bytes) : Shortest b.length h → Writes (.bytes b) (h ++ b)
  | unit : Writes .unit []
  | none : Writes .none [0]
  | some {v : SVal} {b : Bytes} : Writes v b → Writes (.some v) (1 :: b)
  | seq {vs : SVals} {h b : Bytes} : Shortest vs.length h → WritesAll vs b → Writes (.seq vs) (h ++ b)
  | tuple {vs : SVals} {b : Bytes} : WritesAll vs b → Writes (.tuple vs) b
  | variant {i : Nat} {v : SVal} {h b : Bytes} : Shortest i h → Writes v b → Writes (.variant i v) (h ++ b)

/-- One after the other. -/
inductive WritesAll : SVals → Bytes → Prop
  | nil : WritesAll .nil []
  | cons {v : SVal} {r : SVals} {a b : Bytes} : Writes v a → WritesAll r b → WritesAll (.cons v r) (a ++ b)

end

/-- A number of the width, in at most as many bytes as it can take; not necessarily in the shortest way. -/
def Number (w : Wd) (n : Nat) (b : Bytes) : Prop := Leb n b ∧ b.length ≤ maxBytes w ∧ n < 2 * half w

mutual

/-- The bytes that are read as a value of a type, and the sizes of the parts that go through the buffer. A character is
the first one of up to four bytes. -/
inductive Reads : Sch → SVal → List Nat → Bytes → Prop
  | false : Reads .bool (.bool .false) [] [0]
  | true : Reads .bool (.bool .true) [] [1]
  | byte (x : UInt8) : Reads .byte (.byte x) [] [x]
  | uint {w : Wd} {n : Nat} {b : Bytes} : Number w n b → Reads (.uint w) (.uint n) [] b
  | int {w : Wd} {z : Int} {n : Nat} {b : Bytes} : Zigzag z n → Number w n b → Reads (.int w) (.int z) [] b
  | float {n : Nat} {b : Bytes} : b.length = n → Reads (.float n) (.float b) [n] b
  | char {h : Bytes} (c : Char) (t : Str) : Number .w64 (utf8Encode (c :: t)).length h → (utf8Encode (c :: t)).length ≤ 4 →
      Reads .char (.char c) [(utf8Encode (c :: t)).length] (h ++ utf8Encode (c :: t))
  | string {h : Bytes} (s : Str) : Number .w64 (utf8Encode s).length h →
      Reads .string (.string s) [(utf8Encode s).length] (h ++ utf8Encode s)
  | bytes {h : Bytes} (b : Bytes) : Number .w64 b.length h → Reads .bytes (.bytes b) [b.length] (h ++ b)
  | unit : Reads .unit .unit [] []
  | none (s : Sch) : Reads (.option s) .none [] [0]
  | some {s : Sch} {v : SVal} {l : List Nat} {b : Bytes} : Reads s v l b → Reads (.option s) (.some v) l (1 :: b)
  | seq {s : Sch} {vs : SVals} {l : List Nat} {h b : Bytes} : Number .w64 vs.length h → ReadsMany s vs l b →
      Reads (.seq s) (.seq vs) l (h ++ b)
  | tuple {ss : Schs} {vs : SVals} {l : List Nat} {b : Bytes} : ReadsEach ss vs l b → Reads (.tuple ss) (.tuple vs) l b
  | variant {ss : Schs} {i : Nat} {v : SVal} {l : List Nat} {h b : Bytes} : Number .w32 i h → ReadsNth ss i v l b →
      Reads (.enum ss) (.variant i v) l (h ++ b)

inductive ReadsMany : Sch → SVals → List Nat → Bytes → Prop
  | nil (s : Sch) : ReadsMany s .nil [] []
  | cons {s : Sch} {v : SVal} {r : SVals} {l m : List Nat} {a b : Bytes} : Reads s v l a → ReadsMany s r m b →
      ReadsMany s (.cons v r) (l ++ m) (a ++ b)

inductive ReadsEach : Schs → SVals → List Nat → Bytes → Prop
  | nil : ReadsEach .nil .nil [] []
  | cons {s : Sch} {ss : Schs} {v : SVal} {r : SVals} {l m : List Nat} {a b : Bytes} : Reads s v l a →
      ReadsEach ss r m b → ReadsEach (.cons s ss) (.cons v r) (l ++ m) (a ++ b)

inductive ReadsNth : Schs → Nat → SVal → List Nat → Bytes → Prop
  | here {s : Sch} {v : SVal} {l : List Nat} {b : Bytes} (ss : Schs) : Reads s v l b → ReadsNth (.cons s ss) 0 v l b
  | there {ss : Schs} {i : Nat} {v : SVal} {l : List Nat} {b : Bytes} (s : Sch) : ReadsNth ss i v l b →
      ReadsNth (.cons s ss) (i + 1) v l b

end

/-- There is room for parts of these sizes. -/
def RoomFor (p : Policy) (l : List Nat) (buf : Nat) : Prop :=
  match p with
  | .temp => ∀ n ∈ l, n ≤ buf
  | .keep => l.sum ≤ buf

end TF.Spec
