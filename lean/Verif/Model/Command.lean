import Verif.Model.Dirs
import Verif.Model.Opts
import Verif.Model.Targets

/-!
# The commands that cargo-test-fuzz runs: cargo-test-fuzz/src/lib.rs:122-233, 1416-1526 and to_exec.rs
-/

namespace TF

/-! ## Commands -/

/-- `std::process::Command`: program, arguments, explicit changes of the environment in the order in which they
were made (`none`: removal), working directory. The program's path is text. -/
structure Cmd where
  program : Str
  args : List Str := []
  envs : List (Str × Option Str) := []
  cwd : Option Str := none
  deriving DecidableEq, Repr

/-- One explicit change of the environment. -/
def Env.apply (e : Env) : Str × Option Str → Env
  | (k, some v) => e.set k v
  | (k, none) => fun x => if x = k then none else e x

/-- The environment of the process started by a `Command`: the parent's with the explicit changes, the last
change of a variable winning. -/
def Cmd.childEnv (c : Cmd) (parent : Env) : Env := c.envs.foldl Env.apply parent

/-- `Command::args`. -/
def Cmd.addArgs (c : Cmd) (as : List Str) : Cmd := { c with args := c.args ++ as }

/-- `Command::envs`. -/
def Cmd.addEnvs (c : Cmd) (es : List (Str × Str)) : Cmd :=
  { c with envs := c.envs ++ es.map fun x => (x.1, some x.2) }

/-- cargo-test-fuzz/src/lib.rs:127-142 `TestFuzz::command`; `llvm` is `self.llvm_envs()`. -/
def command (llvm : List (Str × Str)) : List Str → Out Cmd
  | [] => .panic
  | program :: args => .ok (({ program := program : Cmd }.addArgs args).addEnvs llvm)

/-! ## Coverage environment -/

/-- The components of a path: cargo-test-fuzz/src/lib.rs:171-172 (`Path::components`); leading slash kept apart,
empty and `.` components are dropped (Rust keeps a leading `.`; that is not modelled). -/
def pathComponents (s : Str) : Bool × List Str :=
  (s.head? = some '/', (splitChar '/' s).filter fun c => !(c.isEmpty || c == c%"."))

/-- cargo-test-fuzz/src/lib.rs:169-181 `replace_target_dir`. `targetDir` is the workspace's target directory and
`newDir` is `self.target_directory()`, both absolute. The suffix is rendered with single slashes. -/
def replaceTargetDir (targetDir newDir : Str) (value : Str) : Str :=
  let v := pathComponents value
  let t := pathComponents targetDir
  if v.1 = t.1 ∧ t.2.isPrefixOf v.2 then newDir ++ c%"/" ++ joinWith c%"/" (v.2.drop t.2.length)
  else value

/-- cargo-test-fuzz/src/lib.rs:158-163: one line of the output of `cargo llvm-cov show-env`. -/
def llvmEnvLine (targetDir newDir line : Str) : Out (Str × Str) :=
  match splitOnce '=' line with
  | none => .panic
  | some (key, value) => .ok (key, replaceTargetDir targetDir newDir (trimMatches '\'' value))

def llvmEnvLines (targetDir newDir : Str) : List Str → Out (List (Str × Str))
  | [] => .ok []
  | l :: ls => do
    let x ← llvmEnvLine targetDir newDir l
    let xs ← llvmEnvLines targetDir newDir ls
    .ok (x :: xs)

/-- cargo-test-fuzz/src/lib.rs:144-167 `llvm_envs`. `showEnv` is the text that `cargo llvm-cov show-env` prints, as
lines; `none` if the command cannot be run or the text is not UTF-8. -/
def llvmEnvs (o : Opts) (targetDir newDir : Str) (showEnv : Option (List Str)) : Out (List (Str × Str)) :=
  if o.coverage.isNone then .ok []
  else
    match showEnv with
    | none => .panic
    | some ls => llvmEnvLines targetDir newDir ls

/-! ## Instrumentation -/

/-- cargo-test-fuzz/src/lib.rs:210-212. -/
def includeCoverage (o : Opts) : Bool := o.coverage.isSome

/-- cargo-test-fuzz/src/lib.rs:214-233. -/
def includeFuzzing (o : Opts) : Bool :=
  let no := o.list || o.coverage.isSome ||
    (match o.display with
     | some .corpus | some .crashes | some .hangs | some .implGenericArgs | some .genericArgs | some .queue => true
     | _ => false) ||
    (match o.replay with
     | some .corpus | some .crashes | some .hangs | some .queue => true
     | _ => false)
  !no

/-- cargo-test-fuzz/src/lib.rs:183-191 `TestFuzz::target_directory` (without the cache). -/
def optsTargetDirectory (o : Opts) (c : Ctx) : Out Path :=
  targetDirectory c (includeCoverage o) (includeFuzzing o)

/-! ## Paths as text -/

/-- `Path::to_string_lossy` of an absolute path. -/
def pathStr (p : Path) : Str := p.flatMap fun s => '/' :: s

/-! ## Fuzzer -/

/-- cargo-test-fuzz/src/lib.rs:1073-1077 `Config`. -/
structure Config where
  ui : Bool
  sufficientCpus : Bool
  firstRun : Bool

/-- Multiplication of `u64`: with overflow checks (`checks`, debug builds) an overflow panics, otherwise it wraps. -/
def mulU64 (checks : Bool) (a b : Nat) : Out Nat :=
  if a * b < 2 ^ 64 then .ok (a * b) else if checks then .panic else .ok (a * b % 2 ^ 64)

/-- cargo-test-fuzz/src/lib.rs:1453-1457: the time bound. -/
def timeBoundArgs (o : Opts) (cfg : Config) : List Str :=
  if !cfg.sufficientCpus then [c%"-V", natStr o.slice]
  else
    match o.maxTotalTime with
    | some t => [c%"-V", natStr t]
    | none => []

/-- cargo-test-fuzz/src/lib.rs:1458-1460: the timeout. -/
def timeoutArgs (checks : Bool) (o : Opts) : Out (List Str) :=
  match o.timeout with
  | some t => do
    let ms ← mulU64 checks t millisPerSec
    .ok [c%"-t", natStr ms]
  | none => .ok []

/-- cargo-test-fuzz/src/lib.rs:1416-1481 `fuzz_command`, apart from creating the output directory.
`checks`: arithmetic is checked for overflow. -/
def fuzzCommand (checks : Bool) (o : Opts) (c : Ctx) (llvm : List (Str × Str)) (cfg : Config) (exe : Exe)
    (target : Str) : Out Cmd := do
  let corpus ← corpusDirFromTarget c exe.name target
  let inputDir := if o.resume || !cfg.firstRun then c%"-" else pathStr corpus
  let outputDir ← outputDirFromTarget c exe.name target
  let envs := baseEnvs ++ (if !cfg.ui then [(c%"AFL_NO_UI", c%"1")] else []) ++
    (if o.runUntilCrash then [(c%"AFL_BENCH_UNTIL_CRASH", c%"1")] else [])
  let t ← timeoutArgs checks o
  let args := [c%"-c-", c%"-i", inputDir, c%"-o", pathStr outputDir, c%"-M", c%"default"] ++ timeBoundArgs o cfg ++
    t ++ o.zzargs ++ [c%"--", exe.path, c%"--exact", target ++ entrySuffix]
  let cmd ← command llvm [c%"cargo", c%"afl", c%"fuzz"]
  .ok ((cmd.addEnvs envs).addArgs args)

/-- cargo-test-fuzz/src/lib.rs:1433: the effect on the file system; the corpus directory is only computed if it
is needed, which makes no difference. -/
def fuzzCommandIO (checks : Bool) (o : Opts) (c : Ctx) (llvm : List (Str × Str)) (cfg : Config) (exe : Exe)
    (target : Str) : IOm Cmd := do
  let outputDir ← IOm.lift (outputDirFromTarget c exe.name target)
  IOm.ignore (createDirAll outputDir)
  IOm.lift (fuzzCommand checks o c llvm cfg exe target)

/-! ## Harness and corpus generation -/

/-- cargo-test-fuzz/src/lib.rs:880-904: environment of the harness. -/
def entryEnvs (o : Opts) : List (Str × Str) :=
  baseEnvs ++ [(c%"AFL_QUIET", c%"1")] ++
    (if o.coverage.isSome then [(c%"TEST_FUZZ_COVERAGE", c%"1")] else []) ++
    (if o.display.isSome then [(c%"TEST_FUZZ_DISPLAY", c%"1")] else []) ++
    (if o.replay.isSome then [(c%"TEST_FUZZ_REPLAY", c%"1")] else []) ++
    (if o.backtrace then [(c%"RUST_BACKTRACE", c%"1")] else []) ++
    (if o.pretty then [(c%"TEST_FUZZ_PRETTY_PRINT", c%"1")] else [])

/-- cargo-test-fuzz/src/lib.rs:900-907: arguments of the harness. -/
def entryArgs (target : Str) : List Str := [c%"--exact", target ++ entrySuffix, c%"--nocapture"]

/-- cargo-test-fuzz/src/lib.rs:1516-1517: the command that generates a corpus. -/
def autoGenerateCommand (llvm : List (Str × Str)) (exe : Exe) (target : Str) : Out Cmd := do
  let cmd ← command llvm [exe.path]
  .ok (cmd.addArgs [c%"--exact", target ++ autoGeneratedSuffix])

/-! ## `subprocess::Exec` -/

/-- `subprocess::Exec`: as far as it is used. Its environment starts as a copy of the parent's. -/
structure Exec where
  program : Str
  args : List Str
  env : Env
  cwd : Option Str

/-- cargo-test-fuzz/src/to_exec.rs:15-29. `listing` is what `Command::get_envs` yields: each changed variable
once, with its last value. -/
def toExec (parent : Env) (c : Cmd) (listing : List (Str × Option Str)) : Exec :=
  { program := c.program, args := c.args, env := listing.foldl Env.apply parent, cwd := c.cwd }

/-- `Exec::env_extend`. -/
def Exec.envExtend (e : Exec) (es : List (Str × Str)) : Exec := { e with env := e.env.setAll es }

/-- `Exec::args`. -/
def Exec.addArgs (e : Exec) (as : List Str) : Exec := { e with args := e.args ++ as }

/-- cargo-test-fuzz/src/lib.rs:937-944: the harness process for one entry. -/
def entryExec (o : Opts) (parent : Env) (llvm : List (Str × Str)) (listing : Cmd → List (Str × Option Str))
    (exe : Exe) (target : Str) : Out Exec := do
  let cmd ← command llvm [exe.path]
  .ok (((toExec parent cmd (listing cmd)).envExtend (entryEnvs o)).addArgs (entryArgs target))

end TF
