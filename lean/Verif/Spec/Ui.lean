import Verif.Rust.Basic

/-!
# Specification vocabulary for the user interface
-/

namespace TF.Spec

/-- A longer prefix never shows less. -/
def VisMono (vis : Bytes → Nat) : Prop := ∀ a b : Bytes, vis a ≤ vis (a ++ b)

def Ascii (b : Bytes) : Prop := ∀ x ∈ b, x.toNat < 0x80

/-- Printable ASCII text without control characters is shown as it is. -/
def VisPlain (vis : Bytes → Nat) : Prop :=
  ∀ b : Bytes, (∀ x ∈ b, 32 ≤ x.toNat ∧ x.toNat < 127) → vis b = b.length

/-- The last `k` elements. -/
def lastN {α : Type} (k : Nat) (l : List α) : List α := l.drop (l.length - k)

/-- `p` is the shortest prefix of `b` that shows at least `width` bytes, or all of `b` if no prefix does. -/
def ShortestShowing (vis : Bytes → Nat) (b : Bytes) (width : Nat) (p : Bytes) : Prop :=
  p <+: b ∧ (width ≤ vis p ∨ (p = b ∧ vis b < width)) ∧ ∀ q, q <+: b → q.length < p.length → vis q < width

end TF.Spec
