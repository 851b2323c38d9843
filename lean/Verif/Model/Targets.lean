import Verif.Model.Opts
import Verif.Model.Versions
import Verif.Rust.Utf8

/-!
# Target discovery and selection: cargo-test-fuzz/src/lib.rs:598-680, 1051-1071
-/

namespace TF

/-- cargo-test-fuzz/src/lib.rs:236-242 `Executable`. -/
structure Exe where
  path : Str
  name : Str
  versions : ExeVersions := ⟨none, none⟩
  deriving DecidableEq, Repr

/-- `BufRead::split('\n')`: chunks between newlines; no empty chunk after a final newline. -/
def splitNl : Bytes → List Bytes
  | [] => []
  | b :: r =>
    if b = 10 then [] :: splitNl r
    else
      match splitNl r with
      | [] => [[b]]
      | x :: xs =>
        -- `x` is the chunk that continues after `b`
        (b :: x) :: xs

/-- `BufRead::lines` drops one trailing carriage return (only where a newline was present; the
difference does not matter for lines ending in `: test`). -/
def dropCr (l : Bytes) : Bytes := if l.getLast? = some 13 then l.dropLast else l

/-- cargo-test-fuzz/src/lib.rs:635-641: one line of the listing. -/
def targetOfLine (line : Str) : Option Str :=
  match stripSuffix c%": test" line with
  | none => none
  | some line => stripSuffix entrySuffix line

/-- cargo-test-fuzz/src/lib.rs:632-643: the loop over the lines. -/
def targetsLoop : List Bytes → Out (List Str)
  | [] => .ok []
  | l :: ls =>
    match utf8Decode (dropCr l) with
    | none => .err c%"Could not get output of"
    | some line => do
      let rest ← targetsLoop ls
      match targetOfLine line with
      | none => .ok rest
      | some t => .ok (t :: rest)

/-- cargo-test-fuzz/src/lib.rs:616-644 `targets`, given the output of
`<executable> --list --format=terse` (`none`: the process could not be started). -/
def targets (output : Option Bytes) : Out (List Str) :=
  match output with
  | none => .err c%"Could not get output of"
  | some b => targetsLoop (splitNl b)

/-- cargo-test-fuzz/src/lib.rs:602-608: first part of `executable_targets`. -/
def allTargets (run : Exe → Option Bytes) : List Exe → Out (List (Exe × List Str))
  | [] => .ok []
  | e :: es => do
    let ts ← targets (run e)
    let rest ← allTargets run es
    .ok ((e, ts) :: rest)

/-- cargo-test-fuzz/src/lib.rs:598-614 `executable_targets`. -/
def executableTargets (run : Exe → Option Bytes) (es : List Exe) : Out (List (Exe × List Str)) := do
  let ets ← allTargets run es
  .ok (ets.filter fun (_, ts) => !ts.isEmpty)

/-- cargo-test-fuzz/src/lib.rs:664-670 `filter_targets`. -/
def filterTargets (o : Opts) (pat : Str) (ts : List Str) : List Str :=
  ts.filter fun t => (!o.exact && contains t pat) || t == pat

/-- cargo-test-fuzz/src/lib.rs:646-662 `filter_executable_targets`. -/
def filterExecutableTargets (o : Opts) (pat : Str) (ets : List (Exe × List Str)) :
    List (Exe × List Str) :=
  ets.filterMap fun (e, ts) =>
    let ts := filterTargets o pat ts
    if ts.isEmpty then none else some (e, ts)

/-- cargo-test-fuzz/src/lib.rs:672-680 `match_message`. -/
def matchMessage (o : Opts) : Str :=
  match o.ztarget with
  | none => []
  | some pat =>
    c%" " ++ (if o.exact then c%"equal to" else c%"containing") ++ c%" `" ++ pat
      ++ c%"`"

/-- cargo-test-fuzz/src/lib.rs:1051-1071 `flatten_executable_targets`. -/
def flattenExecutableTargets (o : Opts) (ets : List (Exe × List Str)) : Out (List (Exe × Str)) := do
  let flat := ets.flatMap fun (e, ts) => ts.map fun t => (e, t)
  ensure (!flat.isEmpty) (c%"Found no fuzz targets" ++ matchMessage o)
  .ok flat

/-- cargo-test-fuzz/src/lib.rs:311-315: the selection made by `run_without_exit_code`. -/
def selectTargets (o : Opts) (ets : List (Exe × List Str)) : List (Exe × List Str) :=
  match o.ztarget with
  | some pat => filterExecutableTargets o pat ets
  | none => ets

end TF
