import Verif.Spec.Modes
import Verif.Spec.Semver
import Verif.Spec.Ui

/-! # Specification vocabulary for panics of the command -/

namespace TF.Spec

/-- `cargo afl --version` cannot be run, or does not print a version. -/
def NoAflVersion (y : Sys) : Prop :=
  ∀ out, y.aflOutput = some out → ¬ ∃ v sp w build rest, out = c%"cargo-afl " ++ sp ++ w ++ rest ∧ (∀ c ∈ sp, Blank c) ∧
    VersionText v build w ∧ ∀ c, rest.head? = some c → Blank c

/-- `cargo metadata` fails, for the manifest given or for the one that the directories are derived from. -/
def NoMetadata (o : Opts) (y : Sys) : Prop :=
  y.ctx.metadata (y.ctx.env.var c%"TEST_FUZZ_MANIFEST_PATH") = none ∨ y.ctx.metadata o.manifestPath = none

/-- Coverage is asked for, and `cargo llvm-cov show-env` cannot be run or prints a line that does not set a variable. -/
def NoCoverageEnv (o : Opts) (y : Sys) : Prop :=
  o.coverage ≠ none ∧ ∀ ls, y.showEnv = some ls → ∃ l ∈ ls, '=' ∉ l

/-- Panics that depend on the targets selected. -/
inductive PanicsOn (o : Opts) (y : Sys) (sel : List (Exe × Str)) : Prop
  /-- Findings are to be removed without `--reset-all`, and there is not exactly one target. -/
  | storing : Wants o .storing → o.resetAll = false → sel.length ≠ 1 → PanicsOn o y sel
  /-- Of several targets, one has a name that is not ASCII. -/
  | heading {e t} : Wants o .replaying → 1 < sel.length → (e, t) ∈ sel → ¬ Ascii (utf8Encode t) → PanicsOn o y sel
  /-- One target is fuzzed, with a timeout that cannot be given in milliseconds. -/
  | timeout {n} : Wants o .fuzzing → o.exitCode = false → sel.length = 1 → y.checks = true → o.timeout = some n →
      2 ^ 64 ≤ n * 1000 → PanicsOn o y sel
  /-- Several targets are fuzzed, or `--exit-code` is given, and the fuzzing loop panics. -/
  | loop {n} : Wants o .fuzzing → o.exitCode = true ∨ 1 < sel.length → 1 ≤ n →
      y.loop ⟨sel.map Prod.snd, n, o.noUi || o.exitCode, o.exitCode, y.vis⟩ = .panic → PanicsOn o y sel

end TF.Spec
