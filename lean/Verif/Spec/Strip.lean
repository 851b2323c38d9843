import Verif.Rust.Utf8

/-!
# What a terminal shows of a text with escape sequences

After ECMA-48 (5.4 control sequences, 5.6 control strings, 8.3.89 OSC), as far as programs use it to colour
their output.
-/

namespace TF.Spec

open TF

/-- C0 and C1 control characters. -/
def Control (c : Char) : Prop := c.toNat < 0x20 ∨ (0x80 ≤ c.toNat ∧ c.toNat < 0xA0)

/-- Control characters in the middle of a sequence (except CAN, SUB and ESC) and DEL are not part of it. -/
def Counts (x : UInt8) : Bool := (0x20 ≤ x.toNat && x.toNat != 0x7F) || x == 0x18 || x == 0x1A || x == 0x1B

/-- A control sequence: `ESC [`, parameter bytes, intermediate bytes, a final byte. -/
def ControlSequence (e : Bytes) : Prop :=
  ∃ m p i f, e = 0x1B :: m ++ [f] ∧ m.filter Counts = 0x5B :: p ++ i ∧ (∀ x ∈ p, 0x30 ≤ x.toNat ∧ x.toNat < 0x40) ∧
    (∀ x ∈ i, 0x20 ≤ x.toNat ∧ x.toNat < 0x30) ∧ 0x40 ≤ f.toNat ∧ f.toNat < 0x7F

/-- Any other escape sequence (ECMA-35): `ESC`, intermediate bytes, a final byte. -/
def EscapeSequence (e : Bytes) : Prop :=
  ∃ m i f, e = 0x1B :: m ++ [f] ∧ m.filter Counts = i ∧ (∀ x ∈ i, 0x20 ≤ x.toNat ∧ x.toNat < 0x30) ∧ 0x30 ≤ f.toNat ∧
    f.toNat < 0x7F ∧ (i = [] → f ∉ ([0x50, 0x58, 0x5B, 0x5D, 0x5E, 0x5F] : List UInt8))

/-- A control string (8.3.27 DCS, 8.3.143 SOS, 8.3.94 PM, 8.3.2 APC): `ESC` and one of `P`, `X`, `^`, `_`, anything, `ESC \`. -/
def ControlString (e : Bytes) : Prop :=
  ∃ o t, e = [0x1B, o] ++ t ++ [0x1B, 0x5C] ∧ o ∈ ([0x50, 0x58, 0x5E, 0x5F] : List UInt8) ∧
    ∀ x ∈ t, (x.toNat < 0x80 ∨ o ≠ 0x50) ∧ x ∉ ([0x18, 0x1A, 0x1B] : List UInt8)

/-- A device control string that is ended by a byte, as in 8-bit codes: `ESC P`, parameter bytes, intermediate bytes, a final
byte, anything, ST. -/
def DeviceString (e : Bytes) : Prop :=
  ∃ p i f t, e = [0x1B, 0x50] ++ p ++ i ++ [f] ++ t ++ [0x9C] ∧ (∀ x ∈ p, 0x30 ≤ x.toNat ∧ x.toNat < 0x40) ∧
    (∀ x ∈ i, 0x20 ≤ x.toNat ∧ x.toNat < 0x30) ∧ 0x40 ≤ f.toNat ∧ f.toNat < 0x7F ∧
    ∀ x ∈ t, x ∉ ([0x18, 0x1A, 0x1B, 0x9C] : List UInt8)

/-- An operating system command (a title, a link): `ESC ]`, anything, then BEL or `ESC \`. -/
def SystemCommand (e : Bytes) : Prop :=
  ∃ t z, e = [0x1B, 0x5D] ++ t ++ z ∧ (∀ x ∈ t, x ∉ ([7, 0x18, 0x1A, 0x1B] : List UInt8)) ∧ (z = [7] ∨ z = [0x1B, 0x5C])

/-- The line feeds among some bytes. -/
def lineFeeds (e : Bytes) : Str := (e.filter (· == 10)).map fun _ => '\n'

/-- A text and what is shown of it. -/
inductive Displays : Bytes → Str → Prop where
  | nil : Displays [] []
  | char {c b s} : ¬ Control c → Displays b s → Displays (encodeChar c ++ b) (c :: s)
  | newline {b s} : Displays b s → Displays (10 :: b) ('\n' :: s)
  | control {c b s} : Control c → c ≠ '\n' → c.toNat ≠ 0x1B → Displays b s → Displays (encodeChar c ++ b) s
  | sequence {e b s} : ControlSequence e → Displays b s → Displays (e ++ b) (lineFeeds e ++ s)
  | command {e b s} : SystemCommand e → Displays b s → Displays (e ++ b) s
  | string {e b s} : ControlString e → Displays b s → Displays (e ++ b) s
  | device {e b s} : DeviceString e → Displays b s → Displays (e ++ b) s
  | escape {e b s} : EscapeSequence e → Displays b s → Displays (e ++ b) (lineFeeds e ++ s)

end TF.Spec
