import Mathlib.Data.Nat.Digits.Defs
import Verif.Model.DebugText
import Verif.Model.Targets

/-!
# The text printed by `--list`: cargo-test-fuzz/src/lib.rs:244-263, 323-326

`println!("{executable_targets:#?}")` for a `Vec<(Executable, Vec<String>)>`. The formatters of vectors, tuples, strings and paths
are those of `core` and `std`.

Simplifications: which characters are printable is a parameter (`core` has tables); paths are text; versions have no build
metadata, as everywhere in the model.
-/

namespace TF

/-! ## Strings -/

/-- Hexadecimal digits of a number, as `{:x}` writes them. -/
def hexText (n : Nat) : Str := if n = 0 then ['0'] else ((Nat.digits 16 n).reverse).map Sha1.hexDigit

/-- `char::escape_debug_ext`. `single`: `'` is escaped, too. -/
def escapeDebug (printable : Char → Bool) (single : Bool) (c : Char) : Str :=
  if c = '\x00' then c%"\\0"
  else if c = '\t' then c%"\\t"
  else if c = '\r' then c%"\\r"
  else if c = '\n' then c%"\\n"
  else if c = '\\' then c%"\\\\"
  else if c = '"' then c%"\\\""
  else if c = '\'' ∧ single = true then c%"\\'"
  else if printable c then [c]
  else c%"\\u{" ++ hexText c.toNat ++ c%"}"

/-- `Debug` of text in quotes. -/
def quoted (printable : Char → Bool) (single : Bool) (s : Str) : Str :=
  c%"\"" ++ s.flatMap (escapeDebug printable single) ++ c%"\""

/-- `Debug` for `str` and `String`. -/
def strDebug (printable : Char → Bool) (s : Str) : Dbg := fun _ => [quoted printable false s]

/-- `Debug` for `Path` and `PathBuf`: `Utf8Chunks` uses `char::escape_debug`, which escapes both kinds of quotes. -/
def pathDebug (printable : Char → Bool) (s : Str) : Dbg := fun _ => [quoted printable true s]

/-! ## Vectors -/

/-- `DebugList::entry` for each entry. -/
def listEntries (alt : Bool) (has : Bool) : List Dbg → List Str
  | [] => []
  | v :: r =>
    (if alt then (if has then [] else [c%"\n"]) ++ (padPieces true (v alt ++ [c%",\n"])).1
    else (if has then [c%", "] else []) ++ v alt) ++ listEntries alt true r

/-- `Debug` for `Vec`: `Formatter::debug_list`, the entries, and `DebugList::finish`. -/
def debugList (entries : List Dbg) : Dbg := fun alt => [c%"["] ++ listEntries alt false entries ++ [c%"]"]

/-! ## Executables -/

/-- `Display` for an identifier of a pre-release tag. -/
def PreId.text : PreId → Str
  | .num n => natStr n
  | .alpha s => s

/-- `Display` for `semver::Version`. -/
def Version.text (v : Version) : Str :=
  natStr v.major ++ c%"." ++ natStr v.minor ++ c%"." ++ natStr v.patch ++
    (if v.pre.isEmpty then [] else c%"-" ++ joinWith c%"." (v.pre.map PreId.text))

/-- cargo-test-fuzz/src/lib.rs:244-263 `Debug` for `Executable`. -/
def exeDebug (printable : Char → Bool) (e : Exe) : Dbg :=
  debugStruct c%"Executable"
    [(c%"path", pathDebug printable e.path), (c%"name", strDebug printable e.name),
      (c%"test_fuzz_version", strDebug printable ((e.versions.testFuzzVersion.map Version.text).getD [])),
      (c%"afl_version", strDebug printable ((e.versions.aflVersion.map Version.text).getD []))]

/-- cargo-test-fuzz/src/lib.rs:324: what `--list` prints. -/
def listText (printable : Char → Bool) (ets : List (Exe × List Str)) : Str :=
  (debugList (ets.map fun x => debugTuple [] [exeDebug printable x.1, debugList (x.2.map (strDebug printable))]) true).flatten ++
    c%"\n"

end TF
