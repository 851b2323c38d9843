import Verif.Model.Run

/-!
# The fuzzing loop with its commands and files: cargo-test-fuzz/src/lib.rs:1270-1337 and 1416-1481

`Verif.Model.Fuzz` has the decisions of the loop. Here an iteration also builds the command of the fuzzer that it starts, which
creates the output directory.
-/

namespace TF

/-- cargo-test-fuzz/src/lib.rs:1278-1306: the fuzzer that an iteration is going to start, if any: the number of its target, and
whether it is the target's first run. -/
def starting (k : FCfg) (inp : Inp) (s : FState) : Option (Nat × Bool) :=
  match refreshState k inp.term s with
  | .ok s =>
    if s.failed.length = k.n || !wantsTask k s || k.n = 0 || decide (s.iTask % k.n ∈ s.failed) then none
    else
      match s.children[s.iTask % k.n]? with
      | some none =>
        let first := decide (s.iTask < k.n)
        if first || !k.sufficient then some (s.iter % k.n, first) else none
      | _ => none
  | _ => none

/-- cargo-test-fuzz/src/lib.rs:1270-1413: one iteration, with the command of the fuzzer that it has started. The command is built
(line 1308) before the fuzzer is started; nothing else in an iteration depends on files or changes any. -/
def iterateIO (o : Opts) (y : Sys) (llvm : List (Str × Str)) (k : FCfg) (ets : List (Exe × Str)) (inp : Inp) (s : FState) :
    IOm (Next × Option Cmd) :=
  match starting k inp s with
  | none => do
    let n ← IOm.lift (iterate k inp s)
    pure (n, none)
  | some (t, first) =>
    match ets[t]? with
    -- `t` is a position of the list
    | none => IOm.lift .panic
    | some x => do
      let cmd ← fuzzCommandIO y.checks o y.ctx llvm ⟨!o.noUi, k.sufficient, first⟩ x.1 x.2
      let n ← IOm.lift (iterate k inp s)
      pure (n, some cmd)

end TF
