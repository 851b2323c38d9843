import Verif.Rust.Basic

/-!
# The `str` methods used by the code

All are written over characters. Rust's versions return byte offsets or sub-slices at character
boundaries; the results denote the same text.
-/

namespace TF

/-- `str::find(needle)`: position (in characters) of the first occurrence. -/
def find (needle : Str) : Str → Option Nat
  | [] => if needle.isPrefixOf [] then some 0 else none
  | c :: cs => if needle.isPrefixOf (c :: cs) then some 0 else (find needle cs).map (· + 1)

/-- `str::contains(needle)`. -/
def contains (hay needle : Str) : Bool := (find needle hay).isSome

/-- `str::strip_prefix`. -/
def stripPrefix (pre s : Str) : Option Str :=
  if pre.isPrefixOf s then some (s.drop pre.length) else none

/-- `str::strip_suffix`. -/
def stripSuffix (suf s : Str) : Option Str :=
  if suf.isSuffixOf s then some (s.take (s.length - suf.length)) else none

/-- `str::replace(char, &str)` for a one-character replacement. -/
def replaceChar (a b : Char) (s : Str) : Str := s.map fun c => if c = a then b else c

/-- `str::split_once(sep)` for a one-character separator. -/
def splitOnce (sep : Char) : Str → Option (Str × Str)
  | [] => none
  | c :: cs => if c = sep then some ([], cs) else (splitOnce sep cs).map fun (a, b) => (c :: a, b)

/-- `str::split(sep)` for a one-character separator. -/
def splitChar (sep : Char) : Str → List Str
  | [] => [[]]
  | c :: cs =>
    if c = sep then [] :: splitChar sep cs
    else
      match splitChar sep cs with
      | [] => [[c]]
      | x :: xs => (c :: x) :: xs

/-- `str::trim_matches(c)`: drops all leading and trailing occurrences of a character. -/
def trimMatches (c : Char) (s : Str) : Str :=
  ((s.dropWhile (· == c)).reverse.dropWhile (· == c)).reverse

/-- `[&str]::join(sep)`. -/
def joinWith (sep : Str) : List Str → Str
  | [] => []
  | [x] => x
  | x :: y :: r => x ++ sep ++ joinWith sep (y :: r)

/-- Decimal representation (`{}` of an unsigned integer). -/
def natStr (n : Nat) : Str := (Nat.toDigits 10 n)

end TF
