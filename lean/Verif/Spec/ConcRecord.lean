import Verif.Model.Sha1
import Verif.Rust.Fs

/-!
# Recording by many tests at once: what is expected
-/

namespace TF.Spec

/-- What exists is in a directory. -/
def Rooted (fs : FS) : Prop := ∀ p, (fs p).isSome → fs.isDir p.dropLast

/-- Nothing is in the way of the recordings `use` (directory and data): no file where a directory is needed, no directory where
a file is needed, now or because of another recording; and different data for one directory have different SHA-1. -/
structure Clear (fs : FS) (use : Path × Bytes → Prop) : Prop where
  dirs : ∀ j, use j → ∀ p c, p <+: j.1 → fs p ≠ some (.file c)
  files : ∀ j, use j → fs (j.1 ++ [fileName j.2]) ≠ some .dir
  apart : ∀ j j', use j → use j' → ¬ j.1 ++ [fileName j.2] <+: j'.1
  hash : ∀ j j', use j → use j' → j.1 = j'.1 → fileName j.2 = fileName j'.2 → j.2 = j'.2

/-- From `fs`, exactly the recordings `use` were made. -/
structure AllRecorded (fs fs' : FS) (use : Path × Bytes → Prop) : Prop where
  files : ∀ j, use j → fs' (j.1 ++ [fileName j.2]) = some (.file j.2)
  dirs : ∀ j, use j → ∀ p, p ≠ [] → p <+: j.1 → fs' p = some .dir
  rest : ∀ p, (∀ j, use j → p ≠ j.1 ++ [fileName j.2]) → (∀ j, use j → p = [] ∨ ¬ p <+: j.1) → fs' p = fs p

end TF.Spec
