import Verif.Model.Expand

/-!
# What the macros print: macro/src/lib.rs:43-44, 80-99, 223-229, 1191-1201

One crate is compiled by one process, which expands one use of the macros after the other. Simplified: what `prettyplease` makes
of an expansion is not modelled, only which expansions are printed; a use that is rejected ends the expansion of the crate (the
compiler goes on with the other uses before it gives up).
-/

namespace TF

/-- A use of `#[test_fuzz]` or of `#[test_fuzz_impl]`. -/
inductive MacroUse where
  | fn (args : AttrArgs) (f : FnIn)
  | impl (x : ImplIn) (items : List ItemIn)

/-- What replaces it: macro/src/lib.rs:223-226 and 90-96. -/
inductive Expansion where
  | fn (m : MethodM) (mo : ModuleM)
  | impl (x : ImplIn) (items : List ItemOut) (modules : List ModuleM)

/-- `TEST_FUZZ_LOG` when the macros were compiled (`option_env!`: changing it causes them to be compiled again), and
`CARGO_CRATE_NAME` when they are used. -/
structure LogEnv where
  value : Option Str
  crateName : Option Str

/-- macro/src/lib.rs:43-44 and 1199-1201 `log_enabled`; the name of the crate is asked for only if the value is not `1`. -/
def logEnabled (e : LogEnv) : Out Bool :=
  match e.value with
  | none => .ok false
  | some v =>
    if v = c%"1" then .ok true
    else
      match e.crateName with
      | none => .panic
      | some c => .ok (decide (v = c))

/-- macro/src/lib.rs:1191-1197 `log`: what is written to the standard output. -/
def logExpansion (e : LogEnv) (x : Expansion) : Out (List Expansion) := do
  let on ← logEnabled e
  if on then .ok [x] else .ok []

/-- macro/src/lib.rs:49-99 and 198-230: the expansion, what is written to the standard output, and the number of warnings. -/
def expandUse (fuzzing : Bool) (e : LogEnv) (u : MacroUse) (n : Nat) : Out (Expansion × List Expansion × Nat × Nat) :=
  match u with
  | .fn args f => do
    let (m, mo, n) ← testFuzz fuzzing args f n
    let p ← logExpansion e (.fn m mo)
    .ok (.fn m mo, p, 0, n)
  | .impl x items => do
    let (its, mos, w, n) ← testFuzzImpl fuzzing x items n
    let p ← logExpansion e (.impl x its mos)
    .ok (.impl x its mos, p, w.toNat, n)

/-- The uses in a crate: macro/src/lib.rs:1184-1189 `INDEX` counts on from use to use. -/
def expandCrate (fuzzing : Bool) (e : LogEnv) : List MacroUse → Nat → Out (List Expansion × List Expansion × Nat × Nat)
  | [], n => .ok ([], [], 0, n)
  | u :: l, n => do
    let (x, p, w, n) ← expandUse fuzzing e u n
    let (xs, ps, ws, n) ← expandCrate fuzzing e l n
    .ok (x :: xs, p ++ ps, w + ws, n)

/-- The crates of a build, with their names: what all of them print. -/
def expandCrates (fuzzing : Bool) (value : Option Str) : List (Str × List MacroUse) → Out (List (List Expansion) × List Expansion)
  | [] => .ok ([], [])
  | (c, us) :: l => do
    let (xs, p, _, _) ← expandCrate fuzzing ⟨value, some c⟩ us 0
    let (xss, ps) ← expandCrates fuzzing value l
    .ok (xs :: xss, p ++ ps)

end TF
