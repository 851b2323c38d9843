import Verif.Rust.Fs

/-!
# Specification vocabulary for recording

Only the file-system model is used here, none of the model of the code.
-/

namespace TF.Spec

/-- There is a file with contents `b` at `p`. -/
def HasFile (fs : FS) (p : Path) (b : Bytes) : Prop := fs p = some (.file b)

/-- Value of a lowercase hexadecimal digit. -/
def hexVal (c : Char) : Option Nat :=
  if '0' ≤ c ∧ c ≤ '9' then some (c.toNat - 48)
  else if 'a' ≤ c ∧ c ≤ 'f' then some (c.toNat - 87)
  else none

/-- Decoding of lowercase hexadecimal text, two digits per byte. -/
def hexDecode : Str → Option Bytes
  | [] => some []
  | [_] => none
  | a :: b :: r =>
    match hexVal a, hexVal b, hexDecode r with
    | some x, some y, some bs => some (UInt8.ofNat (16 * x + y) :: bs)
    | _, _, _ => none

/-- `fs'` differs from `fs` at `p` at most, apart from missing directories above `p` that were made. -/
def ChangesOnly (p : Path) (fs fs' : FS) : Prop :=
  ∀ q, q ≠ p → fs' q = fs q ∨ (fs q = none ∧ fs' q = some .dir ∧ q <+: p)

/-- Two file systems have the same files with the same contents. -/
def SameFiles (fs fs' : FS) : Prop := ∀ p b, HasFile fs p b ↔ HasFile fs' p b

/-- Every path that exists has a directory above it, and no directory on the way to `dir` is a file. -/
def Creatable (fs : FS) (dir : Path) : Prop := ∀ q b, q <+: dir → fs q ≠ some (.file b)

end TF.Spec
