import Verif.Model.Cli

/-!
# Specification vocabulary: the command line

A grammar of command lines and what they mean. From the model only the types of options are used.
-/

namespace TF.Spec

open Cli (Switch Valued)

/-- What a user asks for, one at a time. -/
inductive Item where
  | switch (s : Switch)
  | valued (k : Valued) (value : Str)
  | target (name : Str)
  deriving DecidableEq, Repr

/-- The names of an option without a value. -/
def switchNames : Switch → List Str
  | .backtrace => [c%"backtrace"]
  | .consolidate => [c%"consolidate"]
  | .consolidateAll => [c%"consolidate-all"]
  | .exact => [c%"exact"]
  | .exitCode => [c%"exit-code"]
  | .list => [c%"list"]
  | .noDefaultFeatures => [c%"no-default-features"]
  | .noInstrumentation => [c%"no-instrumentation"]
  | .noRun => [c%"no-run"]
  | .noUi => [c%"no-ui"]
  | .persistent => [c%"persistent"]
  | .pretty => [c%"pretty", c%"pretty-print"]
  | .release => [c%"release"]
  | .reset => [c%"reset"]
  | .resetAll => [c%"reset-all"]
  | .resume => [c%"resume"]
  | .runUntilCrash => [c%"run-until-crash"]
  | .verbose => [c%"verbose"]
  | .help => [c%"help"]
  | .version => [c%"version"]

/-- The name of an option with a value. -/
def valuedName : Valued → Str
  | .coverage => c%"coverage"
  | .cpus => c%"cpus"
  | .display => c%"display"
  | .features => c%"features"
  | .manifestPath => c%"manifest-path"
  | .maxTotalTime => c%"max-total-time"
  | .package => c%"package"
  | .replay => c%"replay"
  | .slice => c%"slice"
  | .test => c%"test"
  | .timeout => c%"timeout"

/-- The name of an object. -/
def objectName : Object → Str
  | .corpus => c%"corpus"
  | .corpusInstrumented => c%"corpus-instrumented"
  | .crashes => c%"crashes"
  | .crashesInstrumented => c%"crashes-instrumented"
  | .genericArgs => c%"generic-args"
  | .hangs => c%"hangs"
  | .hangsInstrumented => c%"hangs-instrumented"
  | .implGenericArgs => c%"impl-generic-args"
  | .queue => c%"queue"
  | .queueInstrumented => c%"queue-instrumented"

/-- An argument that does not look like an option. -/
def Positional (s : Str) : Prop := s = c%"-" ∨ ∀ r, s ≠ '-' :: r

/-- The ways to write what is asked for. -/
inductive Spelling : Item → List Str → Prop where
  | switch {s : Switch} {n : Str} : n ∈ switchNames s → Spelling (.switch s) [c%"--" ++ n]
  | equals (k : Valued) (v : Str) : Spelling (.valued k v) [c%"--" ++ valuedName k ++ '=' :: v]
  | next (k : Valued) {v : Str} : Positional v → Spelling (.valued k v) [c%"--" ++ valuedName k, v]
  | shortNext {v : Str} : Positional v → Spelling (.valued .package v) [c%"-p", v]
  | shortEquals (v : Str) : Spelling (.valued .package v) [c%"-p=" ++ v]
  | shortGlued {v : Str} : v ≠ [] → (∀ r, v ≠ '=' :: r) → Spelling (.valued .package v) [c%"-p" ++ v]
  | target {s : Str} : Positional s → Spelling (.target s) [s]

/-- A command line: items in any order, and possibly `--` with arguments for the fuzzer. -/
inductive CommandLine : List Item → List Str → List Str → Prop where
  | nil : CommandLine [] [] []
  | rest (z : List Str) : CommandLine [] z (c%"--" :: z)
  | cons {i : Item} {is : List Item} {z a as : List Str} :
      Spelling i a → CommandLine is z as → CommandLine (i :: is) z (a ++ as)

/-- The number with the given decimal digits. -/
def decimalValue (ds : Str) : Nat := ds.foldl (fun n c => 10 * n + (c.toNat - 48)) 0

/-- `s` is a way to write `n` in decimal. -/
def Numeral (s : Str) (n : Nat) : Prop :=
  ∃ ds, (s = ds ∨ s = '+' :: ds) ∧ ds ≠ [] ∧ (∀ c ∈ ds, 48 ≤ c.toNat ∧ c.toNat ≤ 57) ∧ n = decimalValue ds

/-- Values that make sense: names of objects, and numbers of 64 bits. -/
def Acceptable : Valued → Str → Prop
  | .coverage, s | .display, s | .replay, s => ∃ o, s = objectName o
  | .cpus, s | .maxTotalTime, s | .slice, s | .timeout, s => ∃ n, Numeral s n ∧ n < 2 ^ 64
  | .features, _ | .manifestPath, _ | .package, _ | .test, _ => True

/-- The item gives the option `k`. -/
def Item.gives (k : Valued) : Item → Bool
  | .valued k' _ => k = k'
  | _ => false

def Item.isTarget : Item → Bool
  | .target _ => true
  | _ => false

def Item.feature : Item → Option Str
  | .valued .features v => some v
  | _ => none

/-- Every option is given at most once, except `--features`; and neither help nor the version is asked for. -/
structure Admissible (is : List Item) : Prop where
  help : .switch .help ∉ is
  version : .switch .version ∉ is
  switches : ∀ s, is.count (.switch s) ≤ 1
  values : ∀ k, k ≠ .features → (is.filter (Item.gives k)).length ≤ 1
  targets : (is.filter Item.isTarget).length ≤ 1
  acceptable : ∀ k v, .valued k v ∈ is → Acceptable k v

/-- The optional value `o` is what is said about `k`, where `R` relates text and values. -/
def Says {α : Type} (is : List Item) (k : Valued) (R : Str → α → Prop) : Option α → Prop
  | none => ∀ v, .valued k v ∉ is
  | some a => ∃ v, .valued k v ∈ is ∧ R v a

/-- The meaning of a command line. -/
structure Means (is : List Item) (z : List Str) (o : Opts) : Prop where
  backtrace : o.backtrace = true ↔ .switch .backtrace ∈ is
  consolidate : o.consolidate = true ↔ .switch .consolidate ∈ is
  consolidateAll : o.consolidateAll = true ↔ .switch .consolidateAll ∈ is
  coverage : Says is .coverage (fun s x => s = objectName x) o.coverage
  cpus : Says is .cpus Numeral o.cpus
  display : Says is .display (fun s x => s = objectName x) o.display
  exact : o.exact = true ↔ .switch .exact ∈ is
  exitCode : o.exitCode = true ↔ .switch .exitCode ∈ is
  features : o.features = is.filterMap Item.feature
  list : o.list = true ↔ .switch .list ∈ is
  manifestPath : Says is .manifestPath Eq o.manifestPath
  maxTotalTime : Says is .maxTotalTime Numeral o.maxTotalTime
  noDefaultFeatures : o.noDefaultFeatures = true ↔ .switch .noDefaultFeatures ∈ is
  noRun : o.noRun = true ↔ .switch .noRun ∈ is
  noUi : o.noUi = true ↔ .switch .noUi ∈ is
  package : Says is .package Eq o.package
  persistent : o.persistent = true ↔ .switch .persistent ∈ is
  pretty : o.pretty = true ↔ .switch .pretty ∈ is
  release : o.release = true ↔ .switch .release ∈ is
  replay : Says is .replay (fun s x => s = objectName x) o.replay
  reset : o.reset = true ↔ .switch .reset ∈ is
  resetAll : o.resetAll = true ↔ .switch .resetAll ∈ is
  resume : o.resume = true ↔ .switch .resume ∈ is
  runUntilCrash : o.runUntilCrash = true ↔ .switch .runUntilCrash ∈ is
  slice : ∃ x, Says is .slice Numeral x ∧ o.slice = match x with | none => 1200 | some n => n
  test : Says is .test Eq o.test
  timeout : Says is .timeout Numeral o.timeout
  verbose : o.verbose = true ↔ .switch .verbose ∈ is
  ztarget : match o.ztarget with | none => ∀ s, .target s ∉ is | some s => .target s ∈ is
  zzargs : o.zzargs = z

/-- The arguments after the process's name ask for help about the command as such. -/
inductive AsksAbout : List Str → Prop
  | flag (r : List Str) : AsksAbout (c%"--help" :: r)
  | short (s : Str) (r : List Str) : AsksAbout ((c%"-h" ++ s) :: r)
  | help : AsksAbout [c%"help"]
  | subcommand : AsksAbout [c%"help", c%"test-fuzz"]
  | helpHelp : AsksAbout [c%"help", c%"help"]

end TF.Spec
