import Verif.Rust.Utf8
import Verif.Spec.Ui

/-!
# A terminal

As VT100 and its descendants (xterm, the Linux console): rows of cells, a cursor, a pen (colours and the like). A character
written in the last column leaves the cursor there; the next character goes to the next row. Erasing to the end of the line
includes the cell of the cursor. The terminal driver turns a line feed into a carriage return and a line feed (ONLCR). What
colour sequences do to the pen is a parameter.
-/

namespace TF.Spec

open TF

/-- A part of a line: a character, or a sequence that sets colours (SGR). -/
inductive Piece where
  | ch (x : UInt8)
  | sgr (ps : Bytes)
  deriving DecidableEq

/-- Printable ASCII; parameters are digits, colons and semicolons. -/
def Piece.Ok : Piece → Prop
  | .ch x => 32 ≤ x.toNat ∧ x.toNat < 127
  | .sgr ps => ∀ x ∈ ps, 0x30 ≤ x.toNat ∧ x.toNat < 0x3C

/-- As written: `x`, `ESC [ .. m`. -/
def Piece.bytes : Piece → Bytes
  | .ch x => [x]
  | .sgr ps => 0x1B :: 0x5B :: (ps ++ [0x6D])

def lineBytes (l : List Piece) : Bytes := l.flatMap Piece.bytes

/-- The characters of a line. -/
def lineText : List Piece → Bytes
  | [] => []
  | .ch x :: l => x :: lineText l
  | .sgr _ :: l => lineText l

/-- A line up to and including its `w`-th character. -/
def cutLine : Nat → List Piece → List Piece
  | 0, _ => []
  | _ + 1, [] => []
  | w + 1, .ch x :: l => .ch x :: cutLine w l
  | w + 1, .sgr ps :: l => .sgr ps :: cutLine (w + 1) l

/-- A cell: a character or nothing, and the pen with which it was written or erased. -/
structure Screen (Pen : Type) where
  rows : Nat
  cols : Nat
  cell : Nat → Nat → Option UInt8 × Pen
  row : Nat
  col : Nat
  /-- The last column has been written, the cursor is still there. -/
  full : Bool
  pen : Pen

variable {Pen : Type}

/-- Carriage return and line feed; in the bottom row everything moves up. -/
def Screen.newline (s : Screen Pen) : Screen Pen :=
  if s.row + 1 < s.rows then { s with row := s.row + 1, col := 0, full := false }
  else { s with cell := fun i j => if i + 1 < s.rows then s.cell (i + 1) j else (none, s.pen), col := 0, full := false }

/-- Write where the cursor is. -/
def Screen.write (s : Screen Pen) (x : UInt8) : Screen Pen :=
  let s' := { s with cell := fun i j => if i = s.row ∧ j = s.col then (some x, s.pen) else s.cell i j }
  if s.col + 1 < s.cols then { s' with col := s.col + 1 } else { s' with full := true }

def Screen.put (s : Screen Pen) (x : UInt8) : Screen Pen := if s.full then s.newline.write x else s.write x

def Screen.home (s : Screen Pen) : Screen Pen := { s with row := 0, col := 0, full := false }

def Screen.erase (s : Screen Pen) : Screen Pen :=
  { s with cell := fun i j => if i = s.row ∧ s.col ≤ j then (none, s.pen) else s.cell i j, full := false }

/-- What bytes do to a terminal. -/
inductive Draws (sgr : Bytes → Pen → Pen) : Bytes → Screen Pen → Screen Pen → Prop
  | done (s : Screen Pen) : Draws sgr [] s s
  | char {x : UInt8} {b : Bytes} {s t : Screen Pen} : 32 ≤ x.toNat → x.toNat < 127 → Draws sgr b (s.put x) t → Draws sgr (x :: b) s t
  | colour {ps b : Bytes} {s t : Screen Pen} : (∀ x ∈ ps, 0x30 ≤ x.toNat ∧ x.toNat < 0x3C) →
      Draws sgr b { s with pen := sgr ps s.pen } t → Draws sgr ([0x1B, 0x5B] ++ ps ++ [0x6D] ++ b) s t
  | home {b : Bytes} {s t : Screen Pen} : Draws sgr b s.home t → Draws sgr ([0x1B, 0x5B, 0x48] ++ b) s t
  | erase {b : Bytes} {s t : Screen Pen} : Draws sgr b s.erase t → Draws sgr ([0x1B, 0x5B, 0x30, 0x4B] ++ b) s t
  | newline {b : Bytes} {s t : Screen Pen} : Draws sgr b s.newline t → Draws sgr (10 :: b) s t

/-- The characters of a line with their pens. -/
def painted (sgr : Bytes → Pen → Pen) : Pen → List Piece → List (UInt8 × Pen)
  | _, [] => []
  | p, .ch x :: l => (x, p) :: painted sgr p l
  | p, .sgr ps :: l => painted sgr (sgr ps p) l

/-- The pen after a line. -/
def penAfter (sgr : Bytes → Pen → Pen) : Pen → List Piece → Pen
  | p, [] => p
  | p, .ch _ :: l => penAfter sgr p l
  | p, .sgr ps :: l => penAfter sgr (sgr ps p) l

/-- The heading of a target: its name, a space, dashes. -/
def headingLine (cols : Nat) (name : Bytes) : List Piece := ((name ++ 32 :: List.replicate cols 45).take cols).map .ch

/-- The rows of a target: the heading and its last lines, cut to the width; then empty rows. -/
def sectionLines (cols share : Nat) (c : Bytes × List (List Piece)) : List (List Piece) :=
  headingLine cols c.1 :: ((lastN share c.2).map (cutLine cols) ++ List.replicate (share - c.2.length) [])

/-- The rows of all targets; `share i`: how many lines the `i`-th one gets. -/
def pageLines (cols : Nat) (share : Nat → Nat) : Nat → List (Bytes × List (List Piece)) → List (List Piece)
  | _, [] => []
  | i, c :: cs => sectionLines cols (share i) c ++ pageLines cols share (i + 1) cs

/-- The row shows the line that was drawn with the pen `p`, and nothing else: cells after it are erased, and so is the last
column. -/
def RowShows (sgr : Bytes → Pen → Pen) (s : Screen Pen) (i : Nat) (p : Pen) (l : List Piece) : Prop :=
  ∀ j < s.cols, s.cell i j = match (painted sgr p l)[j]? with
    | some (x, q) => if j + 1 < s.cols then (some x, q) else (none, penAfter sgr p l)
    | none => (none, penAfter sgr p l)

end TF.Spec
