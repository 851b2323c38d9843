import Verif.Rust.Lossy

/-!
# `strip_ansi_escapes::strip`

After strip-ansi-escapes 0.2.1 (a `vte::Perform` that writes the characters printed and the line feeds executed) and
the parser of vte 0.14.1, the versions in Cargo.lock. Neither is among the sources in /repo, so this is written from
knowledge of these crates. The parser's buffers of parameters, intermediates and OSC data are left out: they go to
callbacks that `strip` ignores.
-/

namespace TF

/-- `vte::State`. -/
inductive VState where
  | ground | escape | escapeInt | csiEntry | csiParam | csiInt | csiIgnore
  | dcsEntry | dcsParam | dcsInt | dcsIgnore | dcsPass | osc | sosPmApc
  deriving DecidableEq, Repr

/-- `Performer::execute`: only line feeds are kept. -/
def execute (b : UInt8) : Bytes := if b = 10 then [10] else []

/-- `0x00..=0x17 | 0x19 | 0x1C..=0x1F`. -/
def isC0 (b : UInt8) : Bool := b.toNat ≤ 0x17 || b.toNat == 0x19 || (0x1C ≤ b.toNat && b.toNat ≤ 0x1F)

/-- `lo..=hi`. -/
def between (lo hi : Nat) (b : UInt8) : Bool := lo ≤ b.toNat && b.toNat ≤ hi

/-- `Parser::anywhere`. -/
def anywhere (s : VState) (b : UInt8) : VState × Bytes :=
  if b.toNat = 0x18 ∨ b.toNat = 0x1A then (.ground, execute b)
  else if b.toNat = 0x1B then (.escape, [])
  else (s, [])

/-- `Parser::change_state`: one byte outside the ground state. What is written, and the next state. -/
def vteStep (s : VState) (b : UInt8) : VState × Bytes :=
  match s with
  | .ground => (s, [])
  | .escape =>
    if isC0 b then (s, execute b)
    else if between 0x20 0x2F b then (.escapeInt, [])
    else if b.toNat = 0x50 then (.dcsEntry, [])
    else if b.toNat = 0x58 ∨ b.toNat = 0x5E ∨ b.toNat = 0x5F then (.sosPmApc, [])
    else if b.toNat = 0x5B then (.csiEntry, [])
    else if b.toNat = 0x5D then (.osc, [])
    else if between 0x30 0x7E b then (.ground, [])
    else if b.toNat = 0x18 ∨ b.toNat = 0x1A then (.ground, execute b)
    else (s, [])
  | .escapeInt =>
    if isC0 b then (s, execute b)
    else if between 0x20 0x2F b then (s, [])
    else if between 0x30 0x7E b then (.ground, [])
    else if b.toNat = 0x7F then (s, [])
    else anywhere s b
  | .csiEntry =>
    if isC0 b then (s, execute b)
    else if between 0x20 0x2F b then (.csiInt, [])
    else if between 0x30 0x3F b then (.csiParam, [])
    else if between 0x40 0x7E b then (.ground, [])
    else anywhere s b
  | .csiParam =>
    if isC0 b then (s, execute b)
    else if between 0x20 0x2F b then (.csiInt, [])
    else if between 0x30 0x3B b then (s, [])
    else if between 0x3C 0x3F b then (.csiIgnore, [])
    else if between 0x40 0x7E b then (.ground, [])
    else if b.toNat = 0x7F then (s, [])
    else anywhere s b
  | .csiInt =>
    if isC0 b then (s, execute b)
    else if between 0x20 0x2F b then (s, [])
    else if between 0x30 0x3F b then (.csiIgnore, [])
    else if between 0x40 0x7E b then (.ground, [])
    else anywhere s b
  | .csiIgnore =>
    if isC0 b then (s, execute b)
    else if between 0x20 0x3F b then (s, [])
    else if between 0x40 0x7E b then (.ground, [])
    else if b.toNat = 0x7F then (s, [])
    else anywhere s b
  | .dcsEntry =>
    if isC0 b then (s, [])
    else if between 0x20 0x2F b then (.dcsInt, [])
    else if b.toNat = 0x3A then (.dcsIgnore, [])
    else if between 0x30 0x3F b then (.dcsParam, [])
    else if between 0x40 0x7E b then (.dcsPass, [])
    else if b.toNat = 0x7F then (s, [])
    else anywhere s b
  | .dcsParam =>
    if isC0 b then (s, [])
    else if between 0x20 0x2F b then (.dcsInt, [])
    else if between 0x30 0x3B b then (s, [])
    else if between 0x3C 0x3F b then (.dcsIgnore, [])
    else if between 0x40 0x7E b then (.dcsPass, [])
    else if b.toNat = 0x7F then (s, [])
    else anywhere s b
  | .dcsInt =>
    if isC0 b then (s, [])
    else if between 0x20 0x2F b then (s, [])
    else if between 0x30 0x3F b then (.dcsIgnore, [])
    else if between 0x40 0x7E b then (.dcsPass, [])
    else if b.toNat = 0x7F then (s, [])
    else anywhere s b
  | .dcsIgnore =>
    if isC0 b then (s, [])
    else if between 0x20 0x7F b then (s, [])
    else if b.toNat = 0x9C then (.ground, [])
    else anywhere s b
  | .dcsPass =>
    if b.toNat = 0x18 ∨ b.toNat = 0x1A then (.ground, execute b)
    else if b.toNat = 0x1B then (.escape, [])
    else if b.toNat = 0x9C then (.ground, [])
    else (s, [])
  | .osc =>
    if b.toNat = 0x07 then (.ground, [])
    else if b.toNat = 0x18 ∨ b.toNat = 0x1A then (.ground, execute b)
    else if b.toNat = 0x1B then (.escape, [])
    else (s, [])
  | .sosPmApc => anywhere s b

/-- `Parser::ground_dispatch` for one character. -/
def groundChar (c : Char) : Bytes :=
  if c.toNat ≤ 0x1F ∨ (0x80 ≤ c.toNat ∧ c.toNat ≤ 0x9F) then execute (UInt8.ofNat c.toNat) else encodeChar c

/-- `Parser::advance`. In the ground state the code decodes everything up to the next escape character at once; here it goes
character by character. An invalid sequence is replaced by U+FFFD, or executed if it is one byte up to 0x9F; an incomplete
character at the end of the input is kept for the next call, and there is none. -/
def stripFuel : Nat → VState → Bytes → Bytes
  | _, _, [] => []
  | 0, _, _ :: _ => []
  | n + 1, .ground, a :: r =>
    if a.toNat = 0x1B then stripFuel n .escape r
    else match decodeOne (a :: r) with
      | some (c, r') => groundChar c ++ stripFuel n .ground r'
      | none =>
        let k := (nextLen a r).1
        if k = r.length + 1 ∧ utf8Width a ≠ 0 then []
        else (if k = 1 ∧ a.toNat ≤ 0x9F then execute a else encodeChar replacement) ++
          stripFuel n .ground ((a :: r).drop k)
  | n + 1, s, a :: r => (vteStep s a).2 ++ stripFuel n (vteStep s a).1 r

/-- `strip_ansi_escapes::strip`. -/
def stripAnsi (b : Bytes) : Bytes := stripFuel b.length .ground b

/-- `strip_ansi_escapes::strip(b).len()`. -/
def shownLen (b : Bytes) : Nat := (stripAnsi b).length

end TF
