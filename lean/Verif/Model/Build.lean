import Verif.Model.Command

/-!
# Building the test executables: cargo-test-fuzz/src/lib.rs:424-529
-/

namespace TF

/-- cargo-test-fuzz/src/lib.rs:429-459: arguments of the build, without the message format; `targetDir` is
`self.target_directory()` as text. -/
def buildArgs (o : Opts) (targetDir : Str) : List Str :=
  (if includeFuzzing o then [c%"afl"] else []) ++
  [c%"test", c%"--no-run"] ++
  (if o.noDefaultFeatures then [c%"--no-default-features"] else []) ++
  o.features.flatMap (fun f => [c%"--features", f]) ++
  (if o.release then [c%"--release"] else []) ++
  (if includeCoverage o || includeFuzzing o then [c%"--target-dir", targetDir] else []) ++
  (match o.manifestPath with | some p => [c%"--manifest-path", p] | none => []) ++
  (match o.package with | some p => [c%"--package", p] | none => []) ++
  (if o.persistent then [c%"--features", c%"test-fuzz/__persistent"] else []) ++
  (match o.test with | some n => [c%"--test", n] | none => [])

/-- cargo-test-fuzz/src/lib.rs:466-470. -/
def messageFormat (terminal : Bool) : Str :=
  if terminal then c%"--message-format=json-diagnostic-rendered-ansi" else c%"--message-format=json"

/-- One message of cargo, as far as it is looked at: cargo-test-fuzz/src/lib.rs:504-516. -/
inductive Message where
  | artifact (packageId : Str) (targetName : Str) (test : Bool) (executable : Option Str)
  | compilerMessage (text : Str)
  | other
  deriving DecidableEq, Repr

/-- What the build process does. -/
inductive BuildRes where
  /-- It cannot be started. -/
  | startErr
  /-- Its output cannot be read. -/
  | streamErr
  /-- It printed `msgs` and ended: `none` if waiting for it failed, otherwise whether it succeeded. -/
  | done (msgs : List Message) (status : Option Bool)

/-- cargo-test-fuzz/src/lib.rs:502-527: the executables among the messages. -/
def executablesOf (m : Metadata) : List Message → Out (List Exe)
  | [] => .ok []
  | .artifact id name true (some path) :: ms => do
    let (tf, afl) ← testFuzzAndAflVersions m id
    let rest ← executablesOf m ms
    .ok (⟨path, name, ⟨tf, afl⟩⟩ :: rest)
  | _ :: ms => executablesOf m ms

/-- cargo-test-fuzz/src/lib.rs:480-528: what becomes of the build's result. -/
def buildResult (m : Metadata) : BuildRes → Out (List Exe)
  | .startErr => .err c%"`start` failed for"
  | .streamErr => .err c%"`parse_stream` failed for"
  | .done _ none => .err c%"`wait` failed for"
  | .done _ (some false) => .err c%"Command failed:"
  | .done msgs (some true) => executablesOf m msgs

end TF
