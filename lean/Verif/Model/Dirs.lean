import Verif.Rust.Env
import Verif.Rust.Fs

/-!
# internal/src/dirs.rs
-/

namespace TF

/-- What the functions of dirs.rs read from their surroundings: the environment, the `IN_TEST` flag
(internal/src/dirs.rs:9), the `Debug` text of the current thread's id, and the answer of
`cargo metadata --no-deps` for an optional manifest path (`none`: the command fails; without a manifest
path the answer depends on the working directory, which is fixed). -/
structure Ctx where
  env : Env
  inTest : Bool
  threadId : Str
  metadata : Option Str → Option Path

/-- internal/src/dirs.rs:104-107 `thread_id`. -/
def threadIdText (c : Ctx) : Str :=
  c.threadId.map fun ch => if ch = '(' ∨ ch = ')' then '_' else ch

/-- internal/src/dirs.rs:95-103 `maybe_id`. -/
def maybeId (c : Ctx) : Option Str :=
  match c.env.var c%"TEST_FUZZ_ID" with
  | some id => some id
  | none => if c.inTest then some (threadIdText c) else none

/-- internal/src/dirs.rs:85-93 `path_segment`. -/
def pathSegment (c : Ctx) (s : Str) : Str :=
  s ++ (if (maybeId c).isSome then c%"_" else []) ++ (maybeId c).getD []

/-- internal/src/dirs.rs:109-124 `target_directory`. -/
def targetDirectory (c : Ctx) (coverage fuzzing : Bool) : Out Path := do
  assert (!(coverage && fuzzing))
  match c.metadata (c.env.var c%"TEST_FUZZ_MANIFEST_PATH") with
  | none => .panic
  | some d =>
    let d := if coverage then d.join c%"coverage" else d
    let d := if fuzzing then d.join c%"afl" else d
    .ok d

/-- The marker searched by `path_from_args_type`. -/
def marker : Str := c%"_fuzz__"

/-- internal/src/dirs.rs:126-133 `path_from_args_type`, as a function of the type's name. -/
def pathFromArgsType (typeName : Str) : Out Str :=
  match find marker typeName with
  | some n => .ok (typeName.take n)
  | none => .panic

/-- internal/src/dirs.rs:135-138 `path_from_target`. -/
def pathFromTarget (krate target : Str) : Str := replaceChar '-' '_' krate ++ c%"::" ++ target

/-- internal/src/dirs.rs:61-65 `impl_generic_args_directory`. -/
def implGenericArgsDirectory (c : Ctx) : Out Path := do
  let d ← targetDirectory c false false
  .ok (d.join (pathSegment c c%"impl_generic_args"))

/-- internal/src/dirs.rs:67-71 `generic_args_directory`. -/
def genericArgsDirectory (c : Ctx) : Out Path := do
  let d ← targetDirectory c false false
  .ok (d.join (pathSegment c c%"generic_args"))

/-- internal/src/dirs.rs:73-77 `corpus_directory`. -/
def corpusDirectory (c : Ctx) : Out Path := do
  let d ← targetDirectory c false false
  .ok (d.join (pathSegment c c%"corpus"))

/-- internal/src/dirs.rs:79-83 `output_directory`. -/
def outputDirectory (c : Ctx) : Out Path := do
  let d ← targetDirectory c false true
  .ok (d.join (pathSegment c c%"output"))

/-- internal/src/dirs.rs:11-14. -/
def implGenericArgsDirFromArgsType (c : Ctx) (typeName : Str) : Out Path := do
  let d ← implGenericArgsDirectory c
  let p ← pathFromArgsType typeName
  .ok (d.join p)

/-- internal/src/dirs.rs:16-19. -/
def implGenericArgsDirFromTarget (c : Ctx) (krate target : Str) : Out Path := do
  let d ← implGenericArgsDirectory c
  .ok (d.join (pathFromTarget krate target))

/-- internal/src/dirs.rs:21-24. -/
def genericArgsDirFromArgsType (c : Ctx) (typeName : Str) : Out Path := do
  let d ← genericArgsDirectory c
  let p ← pathFromArgsType typeName
  .ok (d.join p)

/-- internal/src/dirs.rs:26-29. -/
def genericArgsDirFromTarget (c : Ctx) (krate target : Str) : Out Path := do
  let d ← genericArgsDirectory c
  .ok (d.join (pathFromTarget krate target))

/-- internal/src/dirs.rs:31-34. -/
def corpusDirFromArgsType (c : Ctx) (typeName : Str) : Out Path := do
  let d ← corpusDirectory c
  let p ← pathFromArgsType typeName
  .ok (d.join p)

/-- internal/src/dirs.rs:36-39. -/
def corpusDirFromTarget (c : Ctx) (krate target : Str) : Out Path := do
  let d ← corpusDirectory c
  .ok (d.join (pathFromTarget krate target))

/-- internal/src/dirs.rs:56-59. -/
def outputDirFromTarget (c : Ctx) (krate target : Str) : Out Path := do
  let d ← outputDirectory c
  .ok (d.join (pathFromTarget krate target))

/-- internal/src/dirs.rs:41-44. -/
def crashesDirFromTarget (c : Ctx) (krate target : Str) : Out Path := do
  let d ← outputDirFromTarget c krate target
  .ok (d.join c%"default/crashes")

/-- internal/src/dirs.rs:46-49. -/
def hangsDirFromTarget (c : Ctx) (krate target : Str) : Out Path := do
  let d ← outputDirFromTarget c krate target
  .ok (d.join c%"default/hangs")

/-- internal/src/dirs.rs:51-54. -/
def queueDirFromTarget (c : Ctx) (krate target : Str) : Out Path := do
  let d ← outputDirFromTarget c krate target
  .ok (d.join c%"default/queue")

end TF
