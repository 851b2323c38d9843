import Verif.Spec.Lossy
import Verif.Model.Run

/-! # What is printed -/

namespace TF.Spec

open TF

/-- The characters of a text that are ASCII, as bytes. -/
def asciiOf (s : Str) : Bytes := (s.filter fun c => c.toNat < 128).map fun c => UInt8.ofNat c.toNat

/-- The bytes that are ASCII. -/
def asciiBytes (b : Bytes) : Bytes := b.filter fun x => x.toNat < 128

/-- The line that is being written when a text ends is empty. -/
def AtLineStart (b : Bytes) : Prop := b = [] ∨ ∃ b', b = b' ++ [10]

/-- A text, and a newline unless it is empty or has one already. -/
inductive Completed : Str → Str → Prop where
  | nil : Completed [] []
  | newline (s : Str) : Completed (s ++ ['\n']) (s ++ ['\n'])
  | other (s : Str) (c : Char) : c ≠ '\n' → Completed (s ++ [c]) (s ++ [c] ++ ['\n'])

/-- What follows the output of a harness. -/
inductive Result (status : Str) (r : Report) : Str → Prop where
  | raw : r.verdict = .raw → Result status r []
  | timeout : r.verdict = .timeout → Result status r c%"Timeout\n"
  | silent (ok : Bool) : r.verdict = .status ok → r.buffer = [] → Result status r (status ++ ['\n'])
  | spoke (ok : Bool) : r.verdict = .status ok → r.buffer ≠ [] → Result status r []

end TF.Spec
