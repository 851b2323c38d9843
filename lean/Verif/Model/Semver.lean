import Verif.Model.Versions

/-!
# The text of versions: cargo-test-fuzz/src/lib.rs:705-730, 762-765 and the parsers of crate `semver` 1.0.28

`semver` is an external crate; `Version::parse`, `Display for Version` and the part of `VersionReq::parse` that reads one
comparator are modelled from its (remembered) source `parse.rs`, `display.rs`. The kinds of parse errors are not modelled.
The crate keeps a pre-release tag as text and splits it when it compares; here it is split when it is read.
-/

namespace TF.Semver

def isDigit (c : Char) : Bool := decide ('0'.toNat ≤ c.toNat) && decide (c.toNat ≤ '9'.toNat)

/-- `b'A'..=b'Z' | b'a'..=b'z' | b'-'`. -/
def isLetterOrDash (c : Char) : Bool :=
  (decide ('A'.toNat ≤ c.toNat) && decide (c.toNat ≤ 'Z'.toNat)) ||
    (decide ('a'.toNat ≤ c.toNat) && decide (c.toNat ≤ 'z'.toNat)) || c == '-'

/-- The loop of `numeric_identifier`, parse.rs: value and number of digits so far. -/
def numericLoop (value len : Nat) : Str → Option (Nat × Str)
  | [] => if len = 0 then none else some (value, [])
  | c :: r =>
    if isDigit c then
      if value = 0 ∧ len > 0 then none
      else if value * 10 + (c.toNat - '0'.toNat) < 2 ^ 64 then
        numericLoop (value * 10 + (c.toNat - '0'.toNat)) (len + 1) r
      else none
    else if len = 0 then none
    else some (value, c :: r)

/-- `numeric_identifier`. -/
def numericIdentifier (s : Str) : Option (Nat × Str) := numericLoop 0 0 s

/-- `dot`. -/
def dot : Str → Option Str
  | '.' :: r => some r
  | _ => none

/-- The end of a segment that is followed by something else than a letter, digit or dash: the segments read so far with
this one. `pre`: the segment belongs to a pre-release tag. -/
def endSegment (pre : Bool) (segs : List Str) (seg : Str) (nondigit : Bool) : Option (List Str) :=
  if pre && !nondigit && decide (seg.length > 1) && seg.head? == some '0' then none else some (segs ++ [seg])

/-- The loop of `identifier`, parse.rs: the finished segments, the current one, and whether it has a non-digit. -/
def identifierLoop (pre : Bool) (segs : List Str) (seg : Str) (nondigit : Bool) : Str → Option (List Str × Str)
  | [] =>
    if seg = [] then (if segs = [] then some ([], []) else none)
    else (endSegment pre segs seg nondigit).map fun l => (l, [])
  | c :: r =>
    if isLetterOrDash c then identifierLoop pre segs (seg ++ [c]) true r
    else if isDigit c then identifierLoop pre segs (seg ++ [c]) nondigit r
    else if seg = [] then (if segs = [] ∧ c ≠ '.' then some ([], c :: r) else none)
    else
      match endSegment pre segs seg nondigit with
      | none => none
      | some l => if c = '.' then identifierLoop pre l [] false r else some (l, c :: r)

/-- `identifier`. -/
def identifier (pre : Bool) (s : Str) : Option (List Str × Str) := identifierLoop pre [] [] false s

/-- The value of a string of digits. -/
def digitsValue (s : Str) : Nat := s.foldl (fun n c => n * 10 + (c.toNat - '0'.toNat)) 0

/-- A segment of a pre-release tag as the order of tags sees it: `Ord for Prerelease`, impls.rs. -/
def segmentId (s : Str) : PreId := if s.all isDigit then .num (digitsValue s) else .alpha s

/-- The optional pre-release tag. -/
def parsePre : Str → Option (List Str × Str)
  | '-' :: r =>
    match identifier true r with
    | some (l, r') => if l = [] then none else some (l, r')
    | none => none
  | s => some ([], s)

/-- The optional build metadata. -/
def parseBuild : Str → Option (List Str × Str)
  | '+' :: r =>
    match identifier false r with
    | some (l, r') => if l = [] then none else some (l, r')
    | none => none
  | s => some ([], s)

/-- `Version::parse`: the version and its build metadata. -/
def parseVersion (s : Str) : Option (Version × List Str) := do
  let (major, s) ← numericIdentifier s
  let s ← dot s
  let (minor, s) ← numericIdentifier s
  let s ← dot s
  let (patch, s) ← numericIdentifier s
  let (pre, s) ← parsePre s
  let (build, s) ← parseBuild s
  if s = [] then some (⟨major, minor, patch, pre.map segmentId⟩, build) else none

/-- A segment of a tag as text. -/
def idText : PreId → Str
  | .num n => natStr n
  | .alpha s => s

/-- `Display for Version`. -/
def versionText (v : Version) (build : List Str) : Str :=
  natStr v.major ++ '.' :: natStr v.minor ++ '.' :: natStr v.patch ++
    (if v.pre = [] then [] else '-' :: joinWith ['.'] (v.pre.map idText)) ++
    (if build = [] then [] else '+' :: joinWith ['.'] build)

/-- `semver::Op`. -/
inductive Op where
  | exact
  | greater
  | greaterEq
  | less
  | lessEq
  | tilde
  | caret
  | wildcard
  deriving DecidableEq, Repr

/-- `semver::Comparator`. -/
structure Comparator where
  op : Op
  major : Nat
  minor : Option Nat
  patch : Option Nat
  pre : List PreId
  deriving DecidableEq, Repr

/-- `op`, parse.rs; and whether an operator was written. -/
def parseOp : Str → Op × Bool × Str
  | '=' :: r => (.exact, true, r)
  | '>' :: '=' :: r => (.greaterEq, true, r)
  | '>' :: r => (.greater, true, r)
  | '<' :: '=' :: r => (.lessEq, true, r)
  | '<' :: r => (.less, true, r)
  | '~' :: r => (.tilde, true, r)
  | '^' :: r => (.caret, true, r)
  | s => (.caret, false, s)

/-- `wildcard`, parse.rs. -/
def wildcard : Str → Option Str
  | '*' :: r => some r
  | 'x' :: r => some r
  | 'X' :: r => some r
  | _ => none

/-- `trim_start_matches(' ')`. -/
def skipSpaces (s : Str) : Str := s.dropWhile (· == ' ')

/-- The minor number of a comparator: the number if any, whether there was a wildcard, and the rest. -/
def parseMinor : Str → Option (Option Nat × Bool × Str)
  | '.' :: r =>
    match wildcard r with
    | some r' => some (none, true, r')
    | none => (numericIdentifier r).map fun x => (some x.1, false, x.2)
  | s => some (none, false, s)

/-- The patch number of a comparator, likewise; after a wildcard only another one may follow. -/
def parsePatch (hasWildcard : Bool) : Str → Option (Option Nat × Bool × Str)
  | '.' :: r =>
    match wildcard r with
    | some r' => some (none, true, r')
    | none => if hasWildcard then none else (numericIdentifier r).map fun x => (some x.1, false, x.2)
  | s => some (none, false, s)

/-- `comparator`, parse.rs. -/
def parseComparator (s : Str) : Option (Comparator × Str) := do
  let (op, written, s) := parseOp s
  let (major, s) ← numericIdentifier (skipSpaces s)
  let (minor, w, s) ← parseMinor s
  let (patch, w', s) ← parsePatch w s
  let (pre, s) ← if patch.isSome then parsePre s else some ([], s)
  let (_, s) ← if patch.isSome then parseBuild s else some ([], s)
  some (⟨if (w || w') && !written then .wildcard else op, major, minor, patch, pre.map segmentId⟩, skipSpaces s)

/-- `VersionReq::parse` as far as it is needed: requirements of one comparator. (`*` alone and lists separated by commas
are not modelled; the text of a version is neither.) -/
def parseReq (s : Str) : Option Comparator :=
  match parseComparator (skipSpaces s) with
  | some (c, []) => some c
  | _ => none

/-- cargo-test-fuzz/src/lib.rs:762-765 `as_version_req`. -/
def asVersionReq (v : Version) (build : List Str) : Out Comparator :=
  match parseReq (versionText v build) with
  | some c => .ok c
  | none => .panic

/-- `u8::is_ascii_whitespace`. -/
def isAsciiSpace (c : Char) : Bool := c == ' ' || c == '\t' || c == '\n' || c == '\x0c' || c == '\r'

/-- `str::split_ascii_whitespace().next()`. -/
def firstWord (s : Str) : Option Str :=
  match (s.dropWhile isAsciiSpace).takeWhile fun c => !isAsciiSpace c with
  | [] => none
  | w => some w

/-- cargo-test-fuzz/src/lib.rs:712-730 `cargo_afl_version`, from what `cargo afl --version` wrote (after
`from_utf8_lossy`; `none`: it could not be run). `none` stands for the errors, on which the caller panics. -/
def cargoAflVersion (stdout : Option Str) : Option Version := do
  let out ← stdout
  let r ← stripPrefix c%"cargo-afl " out
  let w ← firstWord r
  let (v, _) ← parseVersion w
  some v

end TF.Semver
