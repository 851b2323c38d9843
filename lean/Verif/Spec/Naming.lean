import Verif.Rust.Env
import Verif.Rust.Fs

/-!
# How rustc, libtest and users name things

Independent of the model of the code.
-/

namespace TF.Spec

/-- A fuzz target as declared: the cargo target it is compiled in (library, binary or integration
test), the modules it is in, the name of its generated module without the suffix `_fuzz__`, and the
text that follows the type name of its argument struct (generic arguments). -/
structure Decl where
  krate : Str
  mods : List Str
  name : Str
  generics : Str

/-- rustc's crate name: `-` becomes `_`. -/
def crateName (d : Decl) : Str := d.krate.map fun c => if c = '-' then '_' else c

/-- Components joined by `::`. -/
def colons : List Str → Str
  | [] => []
  | [x] => x
  | x :: y :: r => x ++ c%"::" ++ colons (y :: r)

/-- The target's name as users see it: path below the crate. -/
def targetName (d : Decl) : Str := colons (d.mods ++ [d.name])

/-- libtest's name of the generated harness `entry`. -/
def harnessName (d : Decl) : Str := colons (d.mods ++ [d.name ++ c%"_fuzz__", c%"entry"])

/-- libtest's name of the generated test `auto_generate`. -/
def autoGenerateName (d : Decl) : Str :=
  colons (d.mods ++ [d.name ++ c%"_fuzz__", c%"auto_generate"])

/-- `std::any::type_name` of the generated struct `Args`. -/
def argsTypeName (d : Decl) : Str :=
  colons (crateName d :: d.mods ++ [d.name ++ c%"_fuzz__", c%"Args"]) ++ d.generics

/-- The crate-qualified name of the target. -/
def qualifiedName (d : Decl) : Str := crateName d ++ c%"::" ++ targetName d

/-- The marker `_fuzz__` begins nowhere before the end of the qualified name. -/
def MarkerFree (d : Decl) : Prop := ¬ c%"_fuzz__" <:+: (qualifiedName d ++ c%"_fuzz_")

/-- A switch is on: the variable is set, is Unicode, and is not "0". -/
def On (e : Env) (var : Str) : Prop := ∃ v, e var = some (.utf8 v) ∧ v ≠ ['0']

/-- Neither path is the other or above the other. -/
def Apart (p q : Path) : Prop := ¬ p <+: q ∧ ¬ q <+: p

/-- A Rust identifier path or crate name contains no `/`. -/
def NoSlash (s : Str) : Prop := '/' ∉ s

end TF.Spec
