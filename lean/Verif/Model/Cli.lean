import Verif.Model.Run

/-!
# The command line

cargo-test-fuzz/src/bin/cargo_test_fuzz/{main,transition}.rs. The parser itself is clap's; it is modelled from clap's
documented behaviour for exactly the declarations of transition.rs: long options with `--name value` and `--name=value`,
one short option, flags, one optional positional argument, and arguments after `--`.

Simplifications: arguments are Unicode text (`env::args` panics on others, main.rs:12); where clap notices an error one
argument later than the model (a value is checked when the next argument arrives), the error is reported at once – in
both cases the process ends with the status 2; what is printed is not modelled.
-/

namespace TF.Cli

/-- The options without a value, transition.rs:26-159; `help` and `version` are added by clap. -/
inductive Switch where
  | backtrace | consolidate | consolidateAll | exact | exitCode | list | noDefaultFeatures | noInstrumentation
  | noRun | noUi | persistent | pretty | release | reset | resetAll | resume | runUntilCrash | verbose | help | version
  deriving DecidableEq, Repr

/-- The options with a value, transition.rs:26-159. -/
inductive Valued where
  | coverage | cpus | display | features | manifestPath | maxTotalTime | package | replay | slice | test | timeout
  deriving DecidableEq, Repr

inductive Key where
  | switch (s : Switch)
  | valued (v : Valued)
  deriving DecidableEq, Repr

/-- The long names: the fields' names in kebab case, and the alias of `--pretty` (transition.rs:26-159). -/
def longTable : List (Str × Key) :=
  [(c%"backtrace", .switch .backtrace), (c%"consolidate", .switch .consolidate),
   (c%"consolidate-all", .switch .consolidateAll), (c%"coverage", .valued .coverage), (c%"cpus", .valued .cpus),
   (c%"display", .valued .display), (c%"exact", .switch .exact), (c%"exit-code", .switch .exitCode),
   (c%"features", .valued .features), (c%"list", .switch .list), (c%"manifest-path", .valued .manifestPath),
   (c%"max-total-time", .valued .maxTotalTime), (c%"no-default-features", .switch .noDefaultFeatures),
   (c%"no-instrumentation", .switch .noInstrumentation), (c%"no-run", .switch .noRun), (c%"no-ui", .switch .noUi),
   (c%"package", .valued .package), (c%"persistent", .switch .persistent), (c%"pretty", .switch .pretty),
   (c%"pretty-print", .switch .pretty), (c%"release", .switch .release), (c%"replay", .valued .replay),
   (c%"reset", .switch .reset), (c%"reset-all", .switch .resetAll), (c%"resume", .switch .resume),
   (c%"run-until-crash", .switch .runUntilCrash), (c%"slice", .valued .slice), (c%"test", .valued .test),
   (c%"timeout", .valued .timeout), (c%"verbose", .switch .verbose), (c%"help", .switch .help),
   (c%"version", .switch .version)]

/-- The short names, transition.rs:94 (`short` on `package`); `-h` and `-V` are added by clap. -/
def shortTable : List (Char × Key) := [('p', .valued .package), ('h', .switch .help), ('V', .switch .version)]

/-- The names of objects: the variants of cargo-test-fuzz/src/lib.rs:71-84 in kebab case (`ValueEnum`). -/
def objectTable : List (Str × Object) :=
  [(c%"corpus", .corpus), (c%"corpus-instrumented", .corpusInstrumented), (c%"crashes", .crashes),
   (c%"crashes-instrumented", .crashesInstrumented), (c%"generic-args", .genericArgs), (c%"hangs", .hangs),
   (c%"hangs-instrumented", .hangsInstrumented), (c%"impl-generic-args", .implGenericArgs), (c%"queue", .queue),
   (c%"queue-instrumented", .queueInstrumented)]

/-- `char::to_digit(10)`. -/
def toDigit (c : Char) : Option Nat :=
  if '0'.toNat ≤ c.toNat ∧ c.toNat ≤ '9'.toNat then some (c.toNat - '0'.toNat) else none

/-- The loop of `u64::from_str`: `checked_mul` and `checked_add`. -/
def digitsLoop (acc : Nat) : Str → Option Nat
  | [] => some acc
  | c :: r =>
    match toDigit c with
    | none => none
    | some d => if acc * 10 < 2 ^ 64 ∧ acc * 10 + d < 2 ^ 64 then digitsLoop (acc * 10 + d) r else none

/-- `u64::from_str` (and `usize::from_str` on 64-bit machines): an optional `+` and digits. -/
def parseU64 : Str → Option Nat
  | [] => none
  | '+' :: [] => none
  | '+' :: r => digitsLoop 0 r
  | r => digitsLoop 0 r

/-- The value of an option. -/
inductive Val where
  | flag
  | object (o : Object)
  | num (n : Nat)
  | text (s : Str)
  deriving DecidableEq, Repr

/-- clap's value parsers for the types of the fields, transition.rs:26-159. -/
def parseValue : Valued → Str → Option Val
  | .coverage, s | .display, s | .replay, s => (objectTable.lookup s).map .object
  | .cpus, s | .maxTotalTime, s | .slice, s | .timeout, s => (parseU64 s).map .num
  | .features, s | .manifestPath, s | .package, s | .test, s => some (.text s)

/-- clap's `ArgMatches`. -/
structure Matches where
  found : List (Key × Val) := []
  target : Option Str := none
  args : List Str := []
  deriving DecidableEq, Repr

/-- Recording an option (clap's `Parser::react`): `--help` and `--version` end the process; everything but `--features`
(`ArgAction::Append`, transition.rs:72) can be used only once. -/
def react (m : Matches) (k : Key) (v : Val) : Out Matches :=
  if k = .switch .help ∨ k = .switch .version then .exit 0
  else if k ≠ .valued .features ∧ k ∈ m.found.map Prod.fst then .exit 2
  else .ok { m with found := m.found ++ [(k, v)] }

/-- An option with its value. -/
def reactValue (m : Matches) (k : Valued) (s : Str) : Out Matches :=
  match parseValue k s with
  | none => .exit 2
  | some v => react m (.valued k) v

/-- `--name` or `--name=value` (clap_lex's `to_long`). -/
def toLong (a : Str) : Option (Str × Option Str) :=
  match stripPrefix c%"--" a with
  | none | some [] => none
  | some r =>
    match splitOnce '=' r with
    | none => some (r, none)
    | some (n, v) => some (n, some v)

/-- `-abc` (clap_lex's `to_short`): not `-`, and not beginning with `--`. -/
def toShort : Str → Option Str
  | '-' :: [] => none
  | '-' :: '-' :: _ => none
  | '-' :: r => some r
  | _ => none

/-- What follows a short option with a value in the same argument: the value, possibly after `=`; `none` if nothing
follows. -/
def attached : Str → Option Str
  | [] => none
  | '=' :: v => some v
  | v => some v

/-- A group of short options: the matches and the option whose value is the next argument. -/
def parseShorts (m : Matches) : Str → Out (Matches × Option Valued)
  | [] => .ok (m, none)
  | c :: r =>
    match shortTable.lookup c with
    | none => .exit 2
    | some (.switch s) => do
      let m' ← react m (.switch s) .flag
      parseShorts m' r
    | some (.valued k) =>
      match attached r with
      | none => .ok (m, some k)
      | some v => do
        let m' ← reactValue m k v
        .ok (m', none)

/-- A long option. -/
def parseLong (m : Matches) (name : Str) (value : Option Str) : Out (Matches × Option Valued) :=
  match longTable.lookup name, value with
  | none, _ => .exit 2
  | some (.switch _), some _ => .exit 2
  | some (.switch s), none => do
    let m' ← react m (.switch s) .flag
    .ok (m', none)
  | some (.valued k), none => .ok (m, some k)
  | some (.valued k), some v => do
    let m' ← reactValue m k v
    .ok (m', none)

/-- clap's loop (`Parser::get_matches_with`). `await` is the option whose value is expected next: anything that looks
like an option is not taken as its value. After `--` everything belongs to the last positional argument
(`last = true`, transition.rs:157), which cannot be given otherwise. -/
def parseLoop (await : Option Valued) (m : Matches) : List Str → Out Matches
  | [] => if await.isSome then .exit 2 else .ok m
  | a :: r =>
    if a = c%"--" then
      if await.isSome then .exit 2 else .ok { m with args := r }
    else
      match toLong a, toShort a, await with
      | some _, _, some _ => .exit 2
      | some (n, v), _, none => do
        let (m', w) ← parseLong m n v
        parseLoop w m' r
      | none, some _, some _ => .exit 2
      | none, some cs, none => do
        let (m', w) ← parseShorts m cs
        parseLoop w m' r
      | none, none, some k => do
        let m' ← reactValue m k a
        parseLoop none m' r
      | none, none, none =>
        if m.target.isSome then .exit 2 else parseLoop none { m with target := some a } r

/-- The value of a field of type `bool`. -/
def Matches.flag (m : Matches) (s : Switch) : Bool := (m.found.lookup (.switch s)).isSome

def Matches.object (m : Matches) (k : Valued) : Option Object :=
  match m.found.lookup (.valued k) with
  | some (.object o) => some o
  | _ => none

def Matches.num (m : Matches) (k : Valued) : Option Nat :=
  match m.found.lookup (.valued k) with
  | some (.num n) => some n
  | _ => none

def Matches.text (m : Matches) (k : Valued) : Option Str :=
  match m.found.lookup (.valued k) with
  | some (.text s) => some s
  | _ => none

/-- All values of an option that can be repeated. -/
def Matches.texts (m : Matches) (k : Valued) : List Str :=
  m.found.filterMap fun x =>
    match x with
    | (k', .text s) => if k' = .valued k then some s else none
    | _ => none

/-- transition.rs:26-159 (the derived `FromArgMatches`, with the default of `--slice`) and transition.rs:161-235 `From`:
the options, and whether `--no-instrumentation` was given, which only causes a warning. -/
def fromMatches (m : Matches) : Opts × Bool :=
  ({ backtrace := m.flag .backtrace
     consolidate := m.flag .consolidate
     consolidateAll := m.flag .consolidateAll
     coverage := m.object .coverage
     cpus := m.num .cpus
     display := m.object .display
     exact := m.flag .exact
     exitCode := m.flag .exitCode
     features := m.texts .features
     list := m.flag .list
     manifestPath := m.text .manifestPath
     maxTotalTime := m.num .maxTotalTime
     noDefaultFeatures := m.flag .noDefaultFeatures
     noRun := m.flag .noRun
     noUi := m.flag .noUi
     package := m.text .package
     persistent := m.flag .persistent
     pretty := m.flag .pretty
     release := m.flag .release
     replay := m.object .replay
     reset := m.flag .reset
     resetAll := m.flag .resetAll
     resume := m.flag .resume
     runUntilCrash := m.flag .runUntilCrash
     slice := (m.num .slice).getD 1200
     test := m.text .test
     timeout := m.num .timeout
     verbose := m.flag .verbose
     ztarget := m.target
     zzargs := m.args }, m.flag .noInstrumentation)

/-- transition.rs:7-17, 252-256: the arguments of the process, of which the first is its name; cargo passes `test-fuzz` as
the second. `help` is a subcommand that clap adds. -/
def parseFrom : List Str → Out (Opts × Bool)
  | [] | [_] => .exit 2
  | _ :: a :: r =>
    if a = c%"test-fuzz" then do
      let m ← parseLoop none {} r
      .ok (fromMatches m)
    else if a = c%"help" then
      if r = [] ∨ r = [c%"test-fuzz"] ∨ r = [c%"help"] then .exit 0 else .exit 2
    else if a = c%"--help" ∨ c%"-h".isPrefixOf a then .exit 0
    else .exit 2

/-- transition.rs:252-256 `cargo_test_fuzz`; main.rs:9-15. -/
def cargoTestFuzz (args : List Str) (y : Sys) : Rm Unit := do
  let x ← Rm.lift (parseFrom args)
  run x.1 y

end TF.Cli
