import Verif.Rust.Utf8

/-!
# `String::from_utf8_lossy`

After core/src/str/lossy.rs (`Utf8Chunks::next`): valid text is kept, and each invalid sequence becomes U+FFFD.
-/

namespace TF

/-- A continuation byte. -/
def isCont (b : UInt8) : Bool := 0x80 ≤ b.toNat && b.toNat < 0xC0

/-- `safe_get`: 0 after the end. -/
def safeGet (b : Bytes) (i : Nat) : UInt8 := b[i]?.getD 0

/-- The second byte of a character of three bytes. -/
def second3 (a b : UInt8) : Bool :=
  let x := a.toNat
  let y := b.toNat
  (x == 0xE0 && 0xA0 ≤ y && y ≤ 0xBF) || (0xE1 ≤ x && x ≤ 0xEC && 0x80 ≤ y && y ≤ 0xBF) ||
    (x == 0xED && 0x80 ≤ y && y ≤ 0x9F) || (0xEE ≤ x && x ≤ 0xEF && 0x80 ≤ y && y ≤ 0xBF)

/-- The second byte of a character of four bytes. -/
def second4 (a b : UInt8) : Bool :=
  let x := a.toNat
  let y := b.toNat
  (x == 0xF0 && 0x90 ≤ y && y ≤ 0xBF) || (0xF1 ≤ x && x ≤ 0xF3 && 0x80 ≤ y && y ≤ 0xBF) ||
    (x == 0xF4 && 0x80 ≤ y && y ≤ 0x8F)

/-- `utf8_char_width` of a byte that is not ASCII. -/
def utf8Width (a : UInt8) : Nat :=
  let x := a.toNat
  if 0xC2 ≤ x && x ≤ 0xDF then 2 else if 0xE0 ≤ x && x ≤ 0xEF then 3 else if 0xF0 ≤ x && x ≤ 0xF4 then 4 else 0

/-- The length of the next character, or of the next invalid sequence. -/
def nextLen (a : UInt8) (r : Bytes) : Nat × Bool :=
  if a.toNat < 128 then (1, true)
  else match utf8Width a with
    | 2 => if isCont (safeGet r 0) then (2, true) else (1, false)
    | 3 =>
      if second3 a (safeGet r 0) then if isCont (safeGet r 1) then (3, true) else (2, false)
      else (1, false)
    | 4 =>
      if second4 a (safeGet r 0) then
        if isCont (safeGet r 1) then if isCont (safeGet r 2) then (4, true) else (3, false) else (2, false)
      else (1, false)
    | _ => (1, false)

/-- U+FFFD. -/
def replacement : Char := Char.ofNat 0xFFFD

/-- The loop; one step per character or invalid sequence. The text of a valid sequence is what it decodes to. -/
def lossyFuel : Nat → Bytes → Str
  | _, [] => []
  | 0, _ :: _ => []
  | n + 1, a :: r =>
    let (k, ok) := nextLen a r
    (if ok then (utf8Decode ((a :: r).take k)).getD [] else [replacement]) ++ lossyFuel n ((a :: r).drop k)

/-- `String::from_utf8_lossy`. -/
def lossy (b : Bytes) : Str := lossyFuel b.length b

end TF
