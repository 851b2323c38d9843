import Verif.Rust.Utf8

/-! # Text from bytes that may not be UTF-8 -/

namespace TF.Spec

open TF

/-- Some character begins with these bytes. -/
def Begins (p : Bytes) : Prop := ∃ c, p <+: encodeChar c

/-- The Unicode Standard, section 3.9, "maximal subpart of an ill-formed subsequence": the longest part at the front that
begins a character, or one byte. -/
def MaximalSubpart (b p : Bytes) : Prop :=
  p <+: b ∧ p ≠ [] ∧ (p.length = 1 ∨ Begins p) ∧ ∀ q, q <+: b → Begins q → q.length ≤ p.length

/-- Bytes and the text shown for them: characters as they are, and U+FFFD for each maximal subpart of what is ill-formed. -/
inductive ShownAs : Bytes → Str → Prop where
  | nil : ShownAs [] []
  | char (c : Char) {b s} : ShownAs b s → ShownAs (encodeChar c ++ b) (c :: s)
  | bad {p b s} : (∀ c, ¬ encodeChar c <+: p ++ b) → MaximalSubpart (p ++ b) p → ShownAs b s →
      ShownAs (p ++ b) (Char.ofNat 0xFFFD :: s)

end TF.Spec
