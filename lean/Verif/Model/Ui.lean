import Verif.Rust.Utf8

/-!
# The terminal user interface: cargo-test-fuzz/src/lib.rs:1119-1202

`vis` stands for `strip_ansi_escapes::strip(bytes).len()` (Rust/Strip: `shownLen`): the number of bytes left
after removing terminal escape sequences.
-/

namespace TF

/-- `str::is_char_boundary` on the UTF-8 bytes of a string. -/
def isBoundary (b : Bytes) (i : Nat) : Bool :=
  match b[i]? with
  | some x => x.toNat < 0x80 || 0xC0 ≤ x.toNat
  | none => i == b.length

/-- `&s[..i]`: panics off character boundaries. -/
def sliceTo (b : Bytes) (i : Nat) : Out Bytes := if isBoundary b i then .ok (b.take i) else .panic

/-- cargo-test-fuzz/src/lib.rs:1188-1200: the binary search, with the assertion after it. `usize::midpoint` does not overflow. -/
def widthSearch (vis : Bytes → Nat) (b : Bytes) (width min max : Nat) : Out Nat :=
  if _h : min < max then
    let mid := (min + max) / 2
    match sliceTo b mid with
    | .ok p =>
      if vis p < width then widthSearch vis b width (mid + 1) max
      else widthSearch vis b width min mid
    | .panic => .panic
    | .err e => .err e
    | .exit c => .exit c
    | .crash => .crash
  else if min = max then .ok min
  else .panic
termination_by max - min
decreasing_by all_goals omega

/-- cargo-test-fuzz/src/lib.rs:1187-1202 `prefix_with_width`, on the bytes of the string. -/
def prefixWithWidth (vis : Bytes → Nat) (b : Bytes) (width : Nat) : Out Bytes := do
  let i ← widthSearch vis b width 0 b.length
  sliceTo b i

/-- cargo-test-fuzz/src/lib.rs:1174-1184 `divider_with_width`. -/
def dividerWithWidth (vis : Bytes → Nat) (target : Bytes) (width : Nat) : Out Bytes :=
  let pre := target ++ [32]
  if pre.length ≥ width then prefixWithWidth vis pre width
  else .ok (pre ++ List.replicate (width - pre.length) 45)

/-- cargo-test-fuzz/src/lib.rs:1147-1152: `n_child_rows`. -/
def childRows (avail n i : Nat) : Nat := avail / n + if i < avail % n then 1 else 0

/-- cargo-test-fuzz/src/lib.rs:1156-1159: one row. -/
def rowOf (vis : Bytes → Nat) (cols : Nat) : Option Bytes → Out Bytes
  | some line => prefixWithWidth vis line cols
  | none => .ok []

/-- cargo-test-fuzz/src/lib.rs:1155-1161: the rows of one child, given the (already cut) buffer; row `i`
is empty if the buffer has no line `i`. -/
def childLines (vis : Bytes → Nat) (cols : Nat) (buf : List Bytes) : List Nat → Out (List Bytes)
  | [] => .ok []
  | i :: is => do
    let row ← rowOf vis cols buf[i]?
    let rows ← childLines vis cols buf is
    .ok (row :: rows)

/-- cargo-test-fuzz/src/lib.rs:1144-1162: the loop over the children, each given by its target name and its
output buffer. The result is the list of printed rows and the remaining buffers. -/
def refreshChildren (vis : Bytes → Nat) (cols avail n : Nat) :
    Nat → List (Bytes × List Bytes) → Out (List Bytes × List (List Bytes))
  | _, [] => .ok ([], [])
  | i, (target, buf) :: cs => do
    let head ← dividerWithWidth vis target cols
    let share := childRows avail n i
    let buf' := buf.drop (buf.length - share)
    let rows ← childLines vis cols buf' (List.range share)
    let (rest, bufs) ← refreshChildren vis cols avail n (i + 1) cs
    .ok (head :: rows ++ rest, buf' :: bufs)

/-- cargo-test-fuzz/src/lib.rs:1119-1163 `refresh`. `term` is the size of the terminal (rows, columns), `none`
if there is no terminal (the code then panics). The result: the rows, and the buffers. -/
def refresh (vis : Bytes → Nat) (noUi : Bool) (term : Option (Nat × Nat)) (nChildren : Nat)
    (cs : List (Bytes × List Bytes)) : Out (List Bytes × List (List Bytes)) :=
  if noUi then .ok ([], cs.map Prod.snd)
  else match term with
    | none => .panic
    | some (rows, cols) =>
      if rows < nChildren + 1 then .ok ([], cs.map Prod.snd)
      else do
        assert (nChildren == cs.length)
        refreshChildren vis cols (rows - (nChildren + 1)) nChildren 0 cs

/-- cargo-test-fuzz/src/lib.rs:1166-1168 `cursor_to_home_position`: `ESC [ H`. -/
def cursorToHomePosition : Bytes := [0x1B, 0x5B, 0x48]

/-- cargo-test-fuzz/src/lib.rs:1170-1172 `clear_to_end_of_line`: `ESC [ 0 K`. -/
def clearToEndOfLine : Bytes := [0x1B, 0x5B, 0x30, 0x4B]

/-- cargo-test-fuzz/src/lib.rs:1119-1163 `refresh`: the bytes that are written to the terminal, and the buffers. Simplified: what
is written before a panic is left out. -/
def refreshOutput (vis : Bytes → Nat) (noUi : Bool) (term : Option (Nat × Nat)) (nChildren : Nat)
    (cs : List (Bytes × List Bytes)) : Out (Bytes × List (List Bytes)) :=
  if noUi then .ok ([], cs.map Prod.snd)
  else do
    let (rows, bufs) ← refresh vis noUi term nChildren cs
    .ok (cursorToHomePosition ++ rows.flatMap (fun r => r ++ clearToEndOfLine ++ [10]), bufs)

end TF
