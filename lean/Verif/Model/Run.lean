import Verif.Model.Build
import Verif.Model.Storage
import Verif.Model.Fuzz
import Verif.Model.Semver

/-!
# `cargo test-fuzz` as a whole: cargo-test-fuzz/src/lib.rs:264-422, 834-1049, 1204-1252, 1483-1526

The program acts on a file system and keeps a record of its actions (`Act`), which the code does not. What other
processes do is given by `Sys`, an arbitrary reaction that may depend on everything that happened before.
-/

namespace TF

/-! ## Actions -/

/-- How the harness ended, as reported for one stored input. -/
inductive Verdict where
  | raw | timeout | status (success : Bool)
  deriving DecidableEq, Repr

/-- The report for one stored input: cargo-test-fuzz/src/lib.rs:975-1003. -/
structure Report where
  name : Str
  buffer : Bytes
  verdict : Verdict
  deriving DecidableEq, Repr

inductive Act where
  /-- `cargo afl --version`. -/
  | aflVersion
  /-- The build; `quiet`: its standard error is discarded. -/
  | build (args : List Str) (quiet : Bool)
  /-- `<executable> --list --format=terse`. -/
  | listTests (exe : Str)
  /-- `--list`: the targets are printed. -/
  | printTargets (ets : List (Exe × List Str))
  /-- Another command is run and waited for. -/
  | command (c : Cmd)
  /-- A heading is printed for a target, with this text. -/
  | heading (target : Str) (text : Bytes)
  /-- A harness is started with a stored input as standard input (`none`: a directory). -/
  | harness (args : List Str) (exe : Str) (file : Path) (input : Option Bytes)
  /-- The harness started last is killed. -/
  | kill
  /-- The harness started last is waited for. -/
  | wait
  | report (r : Report)
  /-- A message on standard error. -/
  | note (s : Str)
  /-- The fuzzing loop is entered. -/
  | fuzzLoop (targets : List (Exe × Str)) (nCpus : Nat)
  /-- Consolidation or removal is begun for these targets. -/
  | consolidate (ets : List (Exe × List Str))
  | reset (ets : List (Exe × List Str))
  deriving DecidableEq

/-- What a harness process does. -/
inductive HProc where
  | startErr
  | communicateErr
  /-- It runs. `wrote t`: what it has written to standard error in the first `t` milliseconds; `closed`: when standard
  error is closed, if ever; `status`: how it ends (`none`: waiting fails); whether it can be killed and then waited for. -/
  | runs (wrote : Nat → Bytes) (closed : Option Nat) (status : Option Bool) (killOk waitOk : Bool)
  /-- Reading its standard error fails. -/
  | readErr (killOk : Bool)

/-- What is observed of a harness process: cargo-test-fuzz/src/lib.rs:942-954. -/
inductive HRes where
  | startErr
  | communicateErr
  /-- It closed its standard error within the time limit; `none`: waiting failed. -/
  | finished (stderr : Bytes) (status : Option Bool)
  /-- It did not within the time limit. -/
  | timedOut (stderr : Bytes) (killOk waitOk : Bool)
  /-- Reading failed otherwise. -/
  | readErr (killOk : Bool)

/-- cargo-test-fuzz/src/lib.rs:945-954: reading standard error until it is closed or the time has passed. (At the very
end of the time the code may do either.) -/
def observe (limit : Nat) : HProc → HRes
  | .startErr => .startErr
  | .communicateErr => .communicateErr
  | .readErr killOk => .readErr killOk
  | .runs wrote (some t) status killOk waitOk =>
    if t ≤ limit * millisPerSec then .finished (wrote t) status
    else .timedOut (wrote (limit * millisPerSec)) killOk waitOk
  | .runs wrote none _ killOk waitOk => .timedOut (wrote (limit * millisPerSec)) killOk waitOk

/-- Everything the program depends on besides its options and the file system. -/
structure Sys where
  plan : Plan
  lister : Lister
  ctx : Ctx
  metadata : Metadata
  terminal : Bool
  /-- Lines printed by `cargo llvm-cov show-env`. -/
  showEnv : Option (List Str)
  ctf : Version
  /-- What `cargo afl --version` writes (`none`: it cannot be run). -/
  aflOutput : Option Str
  build : FS → BuildRes × FS
  listing : Exe → Option Bytes
  /-- Outcome of a command (`none`: it could not be run) and its effect on the file system. -/
  command : List Act → Cmd → FS → Option Bool × FS
  harness : List Act → HProc
  /-- What becomes of the file system while the harness started last runs (its other effects, for instance what it writes to
  standard output, are not observed). -/
  leaves : List Act → FS → FS := fun _ fs => fs
  lcovExists : Option Bool
  numCpus : Nat
  vis : Bytes → Nat
  /-- The columns of the terminal, if there is one. -/
  columns : Option Nat := none
  /-- Arithmetic is checked for overflow. -/
  checks : Bool
  /-- Outcome of the fuzzing loop, if it ends. -/
  loop : FCfg → Out Unit
  /-- What becomes of the file system meanwhile. -/
  fuzzed : FCfg → FS → FS := fun _ fs => fs

structure RSt where
  world : World
  acts : List Act

/-- Computations of the program. -/
def Rm (α : Type) := RSt → Out α × RSt

namespace Rm

def ret {α} (a : α) : Rm α := fun s => (.ok a, s)

def bind {α β} (x : Rm α) (f : α → Rm β) : Rm β := fun s =>
  match x s with
  | (.ok a, s') => f a s'
  | (.err e, s') => (.err e, s')
  | (.panic, s') => (.panic, s')
  | (.exit c, s') => (.exit c, s')
  | (.crash, s') => (.crash, s')

instance : Monad Rm where
  pure := ret
  bind := bind

def lift {α} (x : Out α) : Rm α := fun s => (x, s)

/-- Record an action. -/
def act (a : Act) : Rm Unit := fun s => (.ok (), { s with acts := s.acts ++ [a] })

/-- A file-system computation. -/
def io {α} (y : Sys) (x : IOm α) : Rm α := fun s =>
  let r := x y.plan s.world
  (r.1, { s with world := r.2 })

/-- Run a command: `none` if it could not be run. -/
def command (y : Sys) (c : Cmd) : Rm (Option Bool) := fun s =>
  let r := y.command s.acts c s.world.fs
  (.ok r.1, ⟨{ s.world with fs := r.2 }, s.acts ++ [.command c]⟩)

/-- Run a harness, for at most `limit` seconds. -/
def harness (limit : Nat) (y : Sys) (args : List Str) (exe : Str) (file : Path) (input : Option Bytes) : Rm HRes := fun s =>
  let acts := s.acts ++ [.harness args exe file input]
  (.ok (observe limit (y.harness acts)), ⟨{ s.world with fs := y.leaves acts s.world.fs }, acts⟩)

/-- The fuzzing loop. -/
def loop (y : Sys) (k : FCfg) : Rm Unit := fun s =>
  (y.loop k, { s with world := { s.world with fs := y.fuzzed k s.world.fs } })

/-- Only if `c` holds. -/
def when (c : Bool) (x : Rm Unit) : Rm Unit := if c then x else pure ()

end Rm

/-! ## Stored inputs -/

/-- cargo-test-fuzz/src/lib.rs:63-69 `Flags`. -/
structure Flags where
  requiresCargoTest : Bool
  raw : Bool
  deriving DecidableEq, Repr

/-- cargo-test-fuzz/src/lib.rs:834-858 `flags_and_dir`. -/
def flagsAndDir (c : Ctx) (object : Object) (krate target : Str) : Out (Flags × Path) :=
  match object with
  | .corpus | .corpusInstrumented => do
    let d ← corpusDirFromTarget c krate target
    .ok (⟨true, false⟩, d)
  | .crashes | .crashesInstrumented => do
    let d ← crashesDirFromTarget c krate target
    .ok (⟨false, false⟩, d)
  | .hangs | .hangsInstrumented => do
    let d ← hangsDirFromTarget c krate target
    .ok (⟨false, false⟩, d)
  | .queue | .queueInstrumented => do
    let d ← queueDirFromTarget c krate target
    .ok (⟨false, false⟩, d)
  | .implGenericArgs => do
    let d ← implGenericArgsDirFromTarget c krate target
    .ok (⟨true, true⟩, d)
  | .genericArgs => do
    let d ← genericArgsDirFromTarget c krate target
    .ok (⟨true, true⟩, d)

/-- cargo-test-fuzz/src/lib.rs:1031-1049 `present_participle`. -/
def presentParticiple (o : Opts) : Str :=
  let a : Str := if o.coverage.isSome then c%"generate coverage for" else []
  let a := if o.display.isSome then (if a.isEmpty then a else a ++ c%"/") ++ c%"display" else a
  if o.replay.isSome then (if a.isEmpty then a else a ++ c%"/") ++ c%"replay" else a

/-- `File::open` of an existing path and what reading gives (`none`: a directory). -/
def openEntry (p : Path) : IOm (Option Bytes) :=
  IOm.prim
    (fun fs => match fs p with
      | some (.file d) => .ok (some d, fs)
      | some .dir => .ok (none, fs)
      | none => .err c%"`open` failed for")
    (fun _ fs => fs)

/-- The variables set by the loop of `for_each_entry`: cargo-test-fuzz/src/lib.rs:912-915. -/
structure Seen where
  nonempty : Bool := false
  failure : Bool := false
  timeout : Bool := false
  output : Bool := false
  deriving DecidableEq, Repr

/-- cargo-test-fuzz/src/lib.rs:930-973: contents shown for one entry, and the status of the harness. `file` has been
opened and gives `input`. -/
def runEntry (limit : Nat) (y : Sys) (flags : Flags) (args : List Str) (exe : Str) (file : Path) (input : Option Bytes) :
    Rm (Bytes × Option Bool) :=
  if flags.raw then
    match input with
    | some d => pure (d, none)
    | none => Rm.lift (.err c%"`read_to_end` failed for")
  else do
    let r ← Rm.harness limit y args exe file input
    match r with
    | .startErr => Rm.lift (.err c%"`start` failed for")
    | .communicateErr => Rm.lift (.err c%"`communicate` failed for")
    | .finished stderr status => do
      Rm.act .wait
      match status with
      | none => Rm.lift (.err c%"`wait` failed for")
      | some ok => pure (stderr, some ok)
    | .timedOut stderr killOk waitOk => do
      Rm.act .kill
      if !killOk then Rm.lift (.err c%"`kill` failed for")
      else do
        Rm.act .wait
        if !waitOk then Rm.lift (.err c%"`wait` failed for")
        else pure (stderr, none)
    | .readErr killOk => do
      Rm.act .kill
      if !killOk then Rm.lift (.err c%"`kill` failed for")
      else Rm.lift (.err c%"read failed")

/-- cargo-test-fuzz/src/lib.rs:975-1006: report one entry. -/
def reportEntry (flags : Flags) (name : Str) (buffer : Bytes) (status : Option Bool) (seen : Seen) : Rm Seen := do
  let verdict : Verdict := if flags.raw then .raw else match status with
    | none => .timeout
    | some ok => .status ok
  Rm.act (.report ⟨name, buffer, verdict⟩)
  let seen := if buffer.isEmpty then seen else { seen with output := true }
  let seen := match verdict with
    | .raw => seen
    | .timeout => { seen with timeout := true }
    | .status ok => { seen with failure := seen.failure || !ok }
  pure { seen with nonempty := true }

/-- cargo-test-fuzz/src/lib.rs:917-1007: the loop over the entries. -/
def entriesLoop (limit : Nat) (y : Sys) (flags : Flags) (args : List Str) (exe : Str) (dir : Path) :
    List Str → Seen → Rm Seen
  | [], seen => pure seen
  | n :: ns, seen => do
    let input ← Rm.io y (openEntry (dir ++ [n]))
    if skipName n then entriesLoop limit y flags args exe dir ns seen
    else do
      let (buffer, status) ← runEntry limit y flags args exe (dir ++ [n]) input
      let seen ← reportEntry flags n buffer status seen
      entriesLoop limit y flags args exe dir ns seen

/-- cargo-test-fuzz/src/lib.rs:1009-1028: the closing message. -/
def closing (o : Opts) (seen : Seen) : Rm Unit := do
  Rm.lift (assert (!(!seen.nonempty && (seen.failure || seen.timeout || seen.output))))
  if !seen.nonempty then Rm.act (.note (c%"Nothing to " ++ presentParticiple o ++ c%"."))
  else if !seen.failure && !seen.timeout && !seen.output then Rm.act (.note c%"No output on stderr detected.")
  else if (seen.failure || seen.timeout) && o.coverage.isNone && o.replay.isNone then
    Rm.act (.note (c%"Encountered a " ++ (if seen.failure then c%"failure" else c%"timeout") ++
      c%" while not generating coverage and not replaying. A buggy Debug implementation perhaps?"))
  else pure ()

/-- cargo-test-fuzz/src/lib.rs:945. -/
def timeLimit (o : Opts) : Nat := o.timeout.getD defaultTimeout

/-- cargo-test-fuzz/src/lib.rs:861-1029 `for_each_entry`. The directory's entries are read at once. -/
def forEachEntry (o : Opts) (y : Sys) (exe : Exe) (target : Str) (flags : Flags) (dir : Path) : Rm Unit := do
  let ex ← Rm.io y (pathExists dir)
  Rm.lift (ensure ex (c%"Could not find `" ++ pathStr dir ++ c%"`" ++
    (if flags.requiresCargoTest then c%". Did you remember to run `cargo test`?" else [])))
  let names ← Rm.io y (readDir y.lister dir)
  let seen ← entriesLoop (timeLimit o) y flags (entryArgs target) exe.path dir names {}
  closing o seen

/-! ## Missing corpora -/

/-- cargo-test-fuzz/src/lib.rs:1515-1526 `auto_generate_corpus`; the result is the error, if any. -/
def autoGenerateCorpus (y : Sys) (llvm : List (Str × Str)) (exe : Exe) (target : Str) : Rm (Option Str) := do
  let cmd ← Rm.lift (autoGenerateCommand llvm exe target)
  let r ← Rm.command y cmd
  match r with
  | none => pure (some c%"Could not get status of")
  | some false => pure (some c%"Command failed:")
  | some true => pure none

def missingMessage (corpus : Path) (target : Str) : Str :=
  c%"Could not find or auto-generate `" ++ pathStr corpus ++ c%"`. Please ensure `" ++ target ++ c%"` is tested."

/-- cargo-test-fuzz/src/lib.rs:1487-1508: the loop of `auto_generate_corpora`. -/
def autoGenerateLoop (y : Sys) (llvm : List (Str × Str)) : List (Exe × Str) → List Str → Rm (List Str)
  | [], errors => pure errors
  | (exe, target) :: r, errors => do
    let corpus ← Rm.lift (corpusDirFromTarget y.ctx exe.name target)
    let ex ← Rm.io y (pathExists corpus)
    if ex then autoGenerateLoop y llvm r errors
    else do
      Rm.act (.note (c%"Could not find `" ++ pathStr corpus ++ c%"`. Trying to auto-generate it..."))
      let e ← autoGenerateCorpus y llvm exe target
      match e with
      | some e => autoGenerateLoop y llvm r (errors ++ [e])
      | none => do
        let ex ← Rm.io y (pathExists corpus)
        if !ex then autoGenerateLoop y llvm r (errors ++ [missingMessage corpus target])
        else do
          Rm.act (.note (c%"Auto-generated `" ++ pathStr corpus ++ c%"`."))
          autoGenerateLoop y llvm r errors

/-- cargo-test-fuzz/src/lib.rs:1483-1513 `auto_generate_corpora`. -/
def autoGenerateCorpora (y : Sys) (llvm : List (Str × Str)) (ets : List (Exe × Str)) : Rm Unit := do
  let errors ← autoGenerateLoop y llvm ets []
  if errors.isEmpty then pure ()
  else Rm.lift (.err (c%"\n" ++ joinWith c%"\n" errors))

/-! ## Fuzzing -/

/-- cargo-test-fuzz/src/lib.rs:1228-1252 and on: the setup of the loop; what the loop does is in `Verif.Model.Fuzz`. -/
def fuzzMany (o : Opts) (y : Sys) (ets : List (Exe × Str)) : Rm Unit := do
  let k ← Rm.lift (fuzzSetup o y.numCpus (ets.map Prod.snd) y.vis)
  Rm.act (.fuzzLoop ets k.nCpus)
  Rm.loop y k

/-- cargo-test-fuzz/src/lib.rs:1308-1316: the command with which the loop starts a fuzzer. -/
def loopCommand (o : Opts) (y : Sys) (llvm : List (Str × Str)) (k : FCfg) (ets : List (Exe × Str)) :
    LogEv → Option (Out Cmd)
  | .start tgt _ first =>
    ets[tgt]?.map fun x => fuzzCommand y.checks o y.ctx llvm ⟨!o.noUi, k.sufficient, first⟩ x.1 x.2
  | _ => none

/-- cargo-test-fuzz/src/lib.rs:1204-1252 `fuzz`. -/
def fuzz (o : Opts) (y : Sys) (llvm : List (Str × Str)) (ets : List (Exe × Str)) : Rm Unit := do
  Rm.lift (assert o.coverage.isNone)
  autoGenerateCorpora y llvm ets
  match o.exitCode, ets with
  | false, [(exe, target)] => do
    let cmd ← Rm.io y (fuzzCommandIO y.checks o y.ctx llvm ⟨!o.noUi, true, true⟩ exe target)
    let r ← Rm.command y cmd
    match r with
    | none => Rm.lift (.err c%"Could not get status of")
    | some ok => Rm.lift (ensure ok c%"Command failed:")
  | _, _ => fuzzMany o y ets

/-! ## The whole command -/

/-- `object.to_string().to_kebab_case()`. -/
def objectName : Object → Str
  | .corpus => c%"corpus"
  | .corpusInstrumented => c%"corpus-instrumented"
  | .crashes => c%"crashes"
  | .crashesInstrumented => c%"crashes-instrumented"
  | .genericArgs => c%"generic-args"
  | .hangs => c%"hangs"
  | .hangsInstrumented => c%"hangs-instrumented"
  | .implGenericArgs => c%"impl-generic-args"
  | .queue => c%"queue"
  | .queueInstrumented => c%"queue-instrumented"

/-- cargo-test-fuzz/src/lib.rs:286-295. -/
def checkCoverage (o : Opts) : Out Unit :=
  match o.coverage with
  | some ob =>
    ensure (match ob with | .corpus | .crashes | .hangs | .queue => true | _ => false)
      (c%"`--coverage " ++ objectName ob ++ c%"` is invalid.")
  | none => .ok ()

/-- cargo-test-fuzz/src/lib.rs:296-302. -/
def checkReplay (o : Opts) : Out Unit :=
  match o.replay with
  | some ob =>
    ensure (!(match ob with | .implGenericArgs | .genericArgs => true | _ => false))
      (c%"`--replay " ++ objectName ob ++ c%"` is invalid.")
  | none => .ok ()

/-- cargo-test-fuzz/src/lib.rs:286-303: the checks at the beginning. -/
def checkObjects (o : Opts) : Out Unit := do
  checkCoverage o
  checkReplay o

/-- cargo-test-fuzz/src/lib.rs:424-529 `build`. -/
def build (o : Opts) (y : Sys) (quiet : Bool) : Rm (List Exe) := do
  let dir ← Rm.lift (optsTargetDirectory o y.ctx)
  let args := buildArgs o (pathStr dir) ++ [messageFormat y.terminal]
  Rm.act (.build args (quiet && !o.verbose))
  fun s =>
    let r := y.build s.world.fs
    (buildResult y.metadata r.1, { s with world := { s.world with fs := r.2 } })

/-- cargo-test-fuzz/src/lib.rs:598-614 `executable_targets`, with the actions. -/
def listTargets (y : Sys) (es : List Exe) : Rm (List (Exe × List Str)) := fun s =>
  (executableTargets y.listing es, { s with acts := s.acts ++ es.map fun e => .listTests e.path })

/-- cargo-test-fuzz/src/lib.rs:369-386: flags and directory for one target. -/
def chooseFlagsAndDir (o : Opts) (c : Ctx) (krate target : Str) : Out (Flags × Path) :=
  match o.coverage with
  | some ob => flagsAndDir c ob krate target
  | none =>
    match o.display with
    | some ob => flagsAndDir c ob krate target
    | none =>
      match o.replay with
      | some ob => flagsAndDir c ob krate target
      | none => .ok (⟨false, false⟩, [])

/-- cargo-test-fuzz/src/lib.rs:363-368: the heading of a target. -/
def headingText (y : Sys) (target : Str) : Out Bytes :=
  dividerWithWidth y.vis (utf8Encode target) (y.columns.getD ((utf8Encode target).length + 4))

/-- cargo-test-fuzz/src/lib.rs:363-368. -/
def printHeading (y : Sys) (target : Str) : Rm Unit := do
  let text ← Rm.lift (headingText y target)
  Rm.act (.heading target text)

/-- cargo-test-fuzz/src/lib.rs:361-389: the loop over the targets. -/
def replayLoop (o : Opts) (y : Sys) (multiple : Bool) : List (Exe × Str) → Rm Unit
  | [] => pure ()
  | (exe, target) :: r => do
    Rm.when multiple (printHeading y target)
    let (flags, dir) ← Rm.lift (chooseFlagsAndDir o y.ctx exe.name target)
    forEachEntry o y exe target flags dir
    replayLoop o y multiple r

/-- A command that has to succeed. -/
def mustSucceed (y : Sys) (c : Cmd) : Rm Unit := do
  let r ← Rm.command y c
  match r with
  | none => Rm.lift (.err c%"Could not get status of")
  | some ok => Rm.lift (ensure ok c%"Command failed:")

/-- cargo-test-fuzz/src/lib.rs:350-357: delete the data of earlier coverage runs. -/
def coverageClean (y : Sys) (llvm : List (Str × Str)) : Rm Unit := do
  let cmd ← Rm.lift (command llvm [c%"cargo", c%"llvm-cov", c%"clean", c%"--profraw-only"])
  mustSucceed y cmd

/-- cargo-test-fuzz/src/lib.rs:392-398: the warning before overwriting a report. -/
def coverageWarning (y : Sys) : Rm Unit :=
  match y.lcovExists with
  | none => Rm.lift (.err c%"Could not determine whether lcov.info exists")
  | some b => Rm.when b (Rm.act (.note c%"Warning: Overwriting lcov.info"))

/-- cargo-test-fuzz/src/lib.rs:391-415: write the report. -/
def coverageReport (o : Opts) (y : Sys) (llvm : List (Str × Str)) : Rm Unit := do
  coverageWarning y
  let cmd ← Rm.lift (command llvm [c%"cargo", c%"llvm-cov", c%"report", c%"--lcov", c%"--output-path=lcov.info"])
  mustSucceed y (cmd.addArgs (match o.manifestPath with | some p => [c%"--manifest-path", p] | none => []))

/-- cargo-test-fuzz/src/lib.rs:349-417: coverage, display, replay. -/
def replayAll (o : Opts) (y : Sys) (llvm : List (Str × Str)) (ets : List (Exe × List Str)) : Rm Unit := do
  Rm.when o.coverage.isSome (coverageClean y llvm)
  let flat ← Rm.lift (flattenExecutableTargets o ets)
  replayLoop o y (decide (flat.length > 1)) flat
  Rm.when o.coverage.isSome (coverageReport o y llvm)

/-- cargo-test-fuzz/src/lib.rs:331-347: which of the options asks for consolidation. -/
def wantsConsolidate (o : Opts) : Bool :=
  if o.consolidateAll || o.resetAll then o.consolidateAll else o.consolidate

/-- cargo-test-fuzz/src/lib.rs:331-347: `storage`, with the actions. -/
def storageAll (o : Opts) (y : Sys) (ets : List (Exe × List Str)) : Rm Unit := do
  Rm.when (wantsConsolidate o) (Rm.act (.consolidate ets))
  Rm.act (.reset ets)
  Rm.io y (storage o y.ctx y.lister ets)

/-- A value that must be available: the code panics otherwise. -/
def mustHave {α} : Option α → Out α
  | none => .panic
  | some v => .ok v

/-- cargo-test-fuzz/src/lib.rs:305-319: build, discovery, selection, version checks. The result is `llvm_envs` and the
selected targets. `llvm_envs` and `target_directory` are evaluated where the code first needs them. -/
def gather (o : Opts) (y : Sys) : Rm (List (Str × Str) × List (Exe × List Str)) := do
  let cafl ← Rm.lift (mustHave (Semver.cargoAflVersion y.aflOutput))
  let dir ← Rm.lift (optsTargetDirectory o y.ctx)
  -- `self.metadata()`, cargo-test-fuzz/src/lib.rs:193-208: unlike `target_directory` it uses --manifest-path
  let ws ← Rm.lift (mustHave (y.ctx.metadata o.manifestPath))
  let llvm ← Rm.lift (llvmEnvs o (pathStr ws) (pathStr dir) y.showEnv)
  let exes ← build o y (o.coverage.isSome || o.display.isSome || o.replay.isSome)
  let ets ← listTargets y exes
  Rm.lift (checkVersions y.ctf cafl ((selectTargets o ets).map fun x => x.1.versions))
  pure (llvm, selectTargets o ets)

/-- cargo-test-fuzz/src/lib.rs:286-319: the same, after the checks of the options. -/
def prepare (o : Opts) (y : Sys) : Rm (List (Str × Str) × List (Exe × List Str)) := do
  Rm.lift (checkObjects o)
  Rm.act .aflVersion
  gather o y

/-- cargo-test-fuzz/src/lib.rs:321-421: what to do with the selected targets. -/
def dispatch (o : Opts) (y : Sys) (llvm : List (Str × Str)) (ets : List (Exe × List Str)) : Rm Unit :=
  if o.list then Rm.act (.printTargets ets)
  else if o.noRun then pure ()
  else if o.consolidateAll || o.resetAll || (o.consolidate || o.reset) then storageAll o y ets
  else if o.coverage.isSome || o.display.isSome || o.replay.isSome then replayAll o y llvm ets
  else do
    let flat ← Rm.lift (flattenExecutableTargets o ets)
    fuzz o y llvm flat

/-- cargo-test-fuzz/src/lib.rs:285-422 `run_without_exit_code`. -/
def runWithoutExitCode (o : Opts) (y : Sys) : Rm Unit := do
  let (llvm, ets) ← prepare o y
  dispatch o y llvm ets

/-- cargo-test-fuzz/src/lib.rs:265-273: `--exit-code` implies `--no-ui`. -/
def effectiveOpts (o : Opts) : Opts := if o.exitCode then { o with noUi := true } else o

/-- cargo-test-fuzz/src/lib.rs:264-281 `run`. -/
def run (o : Opts) (y : Sys) : Rm Unit := fun s =>
  match runWithoutExitCode (effectiveOpts o) y s with
  | (.err e, s') => if o.exitCode then (.exit 2, s') else (.err e, s')
  | r => r

/-- The status of the process: cargo-test-fuzz/src/bin/cargo_test_fuzz/main.rs:9-15 returns a `Result`, so an error
gives 1; a panic gives 101. -/
def processStatus : Out Unit → Option Nat
  | .ok _ => some 0
  | .err _ => some 1
  | .panic => some 101
  | .exit c => some c
  | .crash => none

end TF
