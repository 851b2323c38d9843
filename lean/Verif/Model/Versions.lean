import Verif.Rust.Str

/-!
# Versions: cargo-test-fuzz/src/lib.rs:531-596, 682-765, and the used part of crate `semver` 1.0.28

`semver` is an external crate; its functions are modelled from its documentation and (remembered)
source: `VersionReq::parse` of a full version gives one caret comparator, and
`VersionReq::matches` is `matches_req`/`matches_caret`/`pre_is_compatible` of `semver/src/eval.rs`.
-/

namespace TF

/-- One identifier of a pre-release tag. -/
inductive PreId where
  | num (n : Nat)
  | alpha (s : Str)
  deriving DecidableEq, Repr

/-- `semver::Version`. Build metadata is omitted: requirements ignore it. -/
structure Version where
  major : Nat
  minor : Nat
  patch : Nat
  pre : List PreId := []
  deriving DecidableEq, Repr

/-- Lexicographic order on text (ASCII order of semver identifiers). -/
def strLt : Str → Str → Bool
  | _, [] => false
  | [], _ :: _ => true
  | a :: as, b :: bs => a.toNat < b.toNat || (a == b && strLt as bs)

/-- Order of identifiers: numbers below text. -/
def PreId.lt : PreId → PreId → Bool
  | .num a, .num b => a < b
  | .num _, .alpha _ => true
  | .alpha _, .num _ => false
  | .alpha a, .alpha b => strLt a b

/-- Lexicographic order of non-empty tags; a proper prefix is smaller. -/
def preIdsLt : List PreId → List PreId → Bool
  | _, [] => false
  | [], _ :: _ => true
  | a :: as, b :: bs => PreId.lt a b || (a == b && preIdsLt as bs)

/-- `Prerelease: Ord`, `a >= b`. The empty tag is the greatest. -/
def preGe (a b : List PreId) : Bool :=
  if a = b then true
  else if a = [] then true
  else if b = [] then false
  else preIdsLt b a

/-- `matches_caret` of semver for a comparator with all three numbers. -/
def matchesCaret (cmp ver : Version) : Bool :=
  if ver.major ≠ cmp.major then false
  else if cmp.major > 0 then
    if ver.minor ≠ cmp.minor then decide (ver.minor > cmp.minor)
    else if ver.patch ≠ cmp.patch then decide (ver.patch > cmp.patch)
    else preGe ver.pre cmp.pre
  else if cmp.minor > 0 then
    if ver.minor ≠ cmp.minor then false
    else if ver.patch ≠ cmp.patch then decide (ver.patch > cmp.patch)
    else preGe ver.pre cmp.pre
  else if ver.minor ≠ cmp.minor ∨ ver.patch ≠ cmp.patch then false
  else preGe ver.pre cmp.pre

/-- `pre_is_compatible` of semver. -/
def preIsCompatible (cmp ver : Version) : Bool :=
  cmp.major == ver.major && cmp.minor == ver.minor && cmp.patch == ver.patch && !cmp.pre.isEmpty

/-- `as_version_req(v).matches(ver)`: cargo-test-fuzz/src/lib.rs:762-765 and semver's `matches_req`. -/
def reqMatches (v ver : Version) : Bool :=
  if !matchesCaret v ver then false
  else if ver.pre.isEmpty then true
  else preIsCompatible v ver

/-- Result of `check_dependency_version`: accepted, with or without the upgrade hint on stderr. -/
inductive Hint where
  | none
  | upgrade
  deriving DecidableEq, Repr

/-- cargo-test-fuzz/src/lib.rs:732-760 `check_dependency_version`. The error texts are abbreviated to
their distinguishing part. -/
def checkDependencyVersion (dep : Option Version) (bin : Version) : Out Hint :=
  match dep with
  | some dv => do
    if bin.pre.isEmpty then
      ensure (reqMatches dv bin || reqMatches bin dv) c%"incompatible"
    if !reqMatches dv bin then .ok .upgrade else .ok .none
  | none => .err c%"does not depend"

/-- A package of `cargo metadata`. -/
structure Pkg where
  id : Str
  name : Str
  version : Version
  deriving DecidableEq, Repr

/-- A node of the dependency graph of `cargo metadata`. -/
structure DepNode where
  id : Str
  dependencies : List Str
  deriving DecidableEq, Repr

structure Metadata where
  packages : List Pkg
  resolve : Option (List DepNode)
  deriving DecidableEq, Repr

/-- cargo-test-fuzz/src/lib.rs:590-596 `package`. -/
def package (m : Metadata) (id : Str) : Out Pkg :=
  match m.packages.find? (fun p => p.id == id) with
  | some p => .ok p
  | none => .err (c%"Could not find package `" ++ id ++ c%"`")

/-- cargo-test-fuzz/src/lib.rs:582-584 `package_name`. -/
def packageName (m : Metadata) (id : Str) : Out Str := do
  let p ← package m id
  .ok p.name

/-- cargo-test-fuzz/src/lib.rs:586-588 `package_version`. -/
def packageVersion (m : Metadata) (id : Str) : Out Version := do
  let p ← package m id
  .ok p.version

/-- cargo-test-fuzz/src/lib.rs:565-571: names of all dependencies. -/
def idsAndNames (m : Metadata) : List Str → Out (List (Str × Str))
  | [] => .ok []
  | id :: ids => do
    let n ← packageName m id
    let r ← idsAndNames m ids
    .ok ((id, n) :: r)

/-- cargo-test-fuzz/src/lib.rs:550-580 `package_dependency`. -/
def packageDependency (m : Metadata) (id name : Str) : Out (Option Str) :=
  match m.resolve with
  | none => .err c%"No dependency graph"
  | some nodes =>
    match nodes.find? (fun n => n.id == id) with
    | none => .err (c%"Could not find package `" ++ id ++ c%"`")
    | some node => do
      let l ← idsAndNames m node.dependencies
      .ok ((l.find? fun p => p.2 == name).map (·.1))

/-- cargo-test-fuzz/src/lib.rs:531-548 `test_fuzz_and_afl_versions`. -/
def testFuzzAndAflVersions (m : Metadata) (id : Str) : Out (Option Version × Option Version) := do
  let testFuzz ← packageDependency m id c%"test-fuzz"
  match testFuzz with
  | none => .ok (none, none)
  | some tf =>
    let afl ← packageDependency m tf c%"afl"
    let tfv ← packageVersion m tf
    match afl with
    | none => .ok (some tfv, none)
    | some a =>
      let av ← packageVersion m a
      .ok (some tfv, some av)

/-- The executable's data used by the version checks. -/
structure ExeVersions where
  testFuzzVersion : Option Version
  aflVersion : Option Version
  deriving DecidableEq, Repr

/-- cargo-test-fuzz/src/lib.rs:682-703 `check_test_fuzz_and_afl_versions`, over the executables that
are left after the selection; `ctf` and `cafl` are the versions of cargo-test-fuzz and cargo-afl. -/
def checkVersions (ctf cafl : Version) : List ExeVersions → Out Unit
  | [] => .ok ()
  | e :: es => do
    let _ ← checkDependencyVersion e.testFuzzVersion ctf
    let _ ← checkDependencyVersion e.aflVersion cafl
    checkVersions ctf cafl es

end TF
