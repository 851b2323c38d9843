import Verif.Rust.Utf8
import Verif.Model.Versions

/-!
# Specification vocabulary for target discovery, selection and version checks

From the model only the data type `Version` is used.
-/

namespace TF.Spec

/-- What a test executable prints for `--list --format=terse`: each line followed by a newline. -/
def printed (lines : List Str) : Bytes := lines.flatMap fun l => utf8Encode l ++ [10]

/-- A line as a program prints it: no newline inside, no carriage return at the end. -/
def IsLine (l : Str) : Prop := '\n' ∉ l ∧ l.getLast? ≠ some '\r'

/-- Lines that list a fuzzing harness. -/
def listsHarness (l : Str) : Bool := c%"_fuzz__::entry: test".isSuffixOf l

/-- All (executable, target) pairs of a grouped list, in order. -/
def pairs {α β : Type} (l : List (α × List β)) : List (α × β) :=
  l.flatMap fun (e, ts) => ts.map fun t => (e, t)

/-- Semver compatibility of two releases: same leftmost non-zero number, and the same numbers to its
left. -/
def Compatible (a b : Version) : Prop :=
  a.major = b.major ∧
    (a.major = 0 → a.minor = b.minor ∧ (a.minor = 0 → a.patch = b.patch))

/-- Order of releases. -/
def Newer (a b : Version) : Prop :=
  a.major > b.major ∨ (a.major = b.major ∧
    (a.minor > b.minor ∨ (a.minor = b.minor ∧ a.patch > b.patch)))

/-- Not a pre-release. -/
def Release (v : Version) : Prop := v.pre = []

end TF.Spec
