import Verif.Rust.Str

/-!
# Options of cargo-test-fuzz
-/

namespace TF

/-- cargo-test-fuzz/src/lib.rs:71-84 `Object`. -/
inductive Object where
  | corpus | corpusInstrumented | crashes | crashesInstrumented | genericArgs | hangs
  | hangsInstrumented | implGenericArgs | queue | queueInstrumented
  deriving DecidableEq, Repr

/-- cargo-test-fuzz/src/lib.rs:86-120 `TestFuzz`. Machine integers (`u64`, `usize`) are natural numbers
here; where their bound matters it is a hypothesis or an explicit check. -/
structure Opts where
  backtrace : Bool := false
  consolidate : Bool := false
  consolidateAll : Bool := false
  coverage : Option Object := none
  cpus : Option Nat := none
  display : Option Object := none
  exact : Bool := false
  exitCode : Bool := false
  features : List Str := []
  list : Bool := false
  manifestPath : Option Str := none
  maxTotalTime : Option Nat := none
  noDefaultFeatures : Bool := false
  noRun : Bool := false
  noUi : Bool := false
  package : Option Str := none
  persistent : Bool := false
  pretty : Bool := false
  release : Bool := false
  replay : Option Object := none
  reset : Bool := false
  resetAll : Bool := false
  resume : Bool := false
  runUntilCrash : Bool := false
  slice : Nat := 0
  test : Option Str := none
  timeout : Option Nat := none
  verbose : Bool := false
  ztarget : Option Str := none
  zzargs : List Str := []
  deriving DecidableEq, Repr

/-- cargo-test-fuzz/src/lib.rs:54-55. -/
def autoGeneratedSuffix : Str := c%"_fuzz__::auto_generate"
def entrySuffix : Str := c%"_fuzz__::entry"

/-- cargo-test-fuzz/src/lib.rs:57 `BASE_ENVS`. -/
def baseEnvs : List (Str × Str) :=
  [(c%"TEST_FUZZ", c%"1"), (c%"TEST_FUZZ_WRITE", c%"0")]

/-- cargo-test-fuzz/src/lib.rs:59-61. -/
def defaultTimeout : Nat := 1
def millisPerSec : Nat := 1000

end TF
