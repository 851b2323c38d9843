import Verif.Model.Runtime

/-!
# Generated code: macro/src/lib.rs:238-808 `map_method_or_fn`

The macro is modelled as a function to a small language of generated statements (`Code`), and the statements
are given a meaning by an interpreter. Not modelled here: the generated types (see `Model/Args.lean`), the
`__cast_checks` feature, and what user code does while a value is cloned, converted, printed or dropped.
-/

namespace TF

/-! ## The language of generated statements -/

/-- Conditions in generated code. -/
inductive Guard where
  | testFuzz | coverage | display | replay | write
  | not (g : Guard)
  | or (g h : Guard)
  deriving DecidableEq

/-- Statements of generated code. -/
inductive Code where
  | nop
  | seq (a b : Code)
  /-- `#[cfg(test)] c` -/
  | cfgTest (c : Code)
  /-- `#[cfg(not(test))] c` -/
  | cfgNotTest (c : Code)
  | cond (g : Guard) (c d : Code)
  /-- `test_fuzz::runtime::write_impl_generic_args` -/
  | writeImplGenericArgs
  /-- `test_fuzz::runtime::write_generic_args` -/
  | writeGenericArgs
  /-- `write_args(Args { .. })` -/
  | writeArgs
  /-- The statements of the function the attribute is applied to. -/
  | stmts
  | warnIfTestFuzzNotEnabled
  /-- The warning about coverage of functions with more than one statement. -/
  | warnNontrivial
  | setAbortHook
  | takeHook
  /-- `let mut args = read_args(stdin())` -/
  | readArgs
  /-- `output_args` -/
  | showArgs
  /-- `let ret = args.map(|mut args| call)` -/
  | callTarget
  /-- `output_ret` -/
  | showRet
  /-- `for args in args_from_autos { write_args(args) }` -/
  | writeAutos
  /-- `test_fuzz::afl::fuzz!(|data: &[u8]| { let mut args = read_args(data); let ret = args.map(|mut args| call); })` -/
  | fuzzLoop
  deriving DecidableEq

infixr:60 " ;; " => Code.seq

/-- `if g { c }` -/
def Code.when (g : Guard) (c : Code) : Code := .cond g c .nop

/-! ## The macro -/

/-- What the expansion depends on: the options of the attribute (macro/src/lib.rs:175-196) and the function. -/
structure MacroIn where
  onlyGenericArgs : Bool := false
  enableInProduction : Bool := false
  noAutoGenerate : Bool := false
  /-- `impl_generic_args` is given. -/
  implGenericArgs : Bool := false
  /-- `generic_args` is given. -/
  genericArgs : Bool := false
  /-- Number of type parameters of the impl. -/
  implTypeParams : Nat := 0
  /-- Number of type parameters of the function. -/
  typeParams : Nat := 0
  /-- Number of statements of the function. -/
  numStmts : Nat := 1
  deriving DecidableEq

/-- macro/src/lib.rs:252-270 `warn_if_function_is_nontrivial`. -/
def warnIfFunctionIsNontrivial (m : MacroIn) : Code := if m.numStmts ≥ 2 then .warnNontrivial else .nop

/-- macro/src/lib.rs:494-503. -/
def writeGenericArgsCode : Code := .writeImplGenericArgs ;; .writeGenericArgs

/-- macro/src/lib.rs:504-512. -/
def writeArgsCode (m : MacroIn) : Code := if m.onlyGenericArgs then .nop else .writeArgs

/-- macro/src/lib.rs:513-519 `write_generic_args_and_args`. -/
def writeGenericArgsAndArgs (m : MacroIn) : Code :=
  .cfgTest (.when (.not .testFuzz) (writeGenericArgsCode ;; writeArgsCode m))

/-- macro/src/lib.rs:520-538. -/
def inProductionWriteGenericArgsAndArgs (m : MacroIn) : Code :=
  if m.enableInProduction then .cfgNotTest (.when .write (writeGenericArgsCode ;; writeArgsCode m)) else .nop

/-- macro/src/lib.rs:778-789: the new body of the function. -/
def instrumentation (m : MacroIn) : Code :=
  writeGenericArgsAndArgs m ;; inProductionWriteGenericArgsAndArgs m ;; .stmts

/-- macro/src/lib.rs:735-767: the body of `Args::entry`, made of `input_args`, `output_args`,
`call_in_environment_with_deserialized_arguments` and `output_ret`. -/
def argsEntryFrom (inputArgs outputArgs call outputRet : Code) (m : MacroIn) : Code :=
  .warnIfTestFuzzNotEnabled ;;
  .when .testFuzz
    (.cond (.or .coverage (.or .display .replay))
      (.when .coverage (warnIfFunctionIsNontrivial m) ;;
        inputArgs ;;
        .when .display outputArgs ;;
        .when (.or .coverage .replay) (call ;; .when .replay outputRet))
      (.setAbortHook ;; inputArgs ;; call ;; .takeHook))

/-- macro/src/lib.rs:549-571, 610-656 without the feature `__persistent`. -/
def argsEntry (m : MacroIn) : Code := argsEntryFrom .readArgs .showArgs .callTarget .showRet m

/-- macro/src/lib.rs:549-571, 610-656 with the feature `__persistent`. -/
def persistentArgsEntry (m : MacroIn) : Code := argsEntryFrom .nop .nop .fuzzLoop .nop m

/-- macro/src/lib.rs:715-718: whether the harness has a body. -/
def hasEntry (m : MacroIn) : Bool :=
  !(m.onlyGenericArgs || (decide (0 < m.implTypeParams) && !m.implGenericArgs) ||
    (decide (0 < m.typeParams) && !m.genericArgs))

/-- macro/src/lib.rs:714-776, 800-804: the test `entry`. -/
def entryTest (m : MacroIn) : Code := if hasEntry m then argsEntry m else .nop

/-- The test `entry` if the macro is compiled with the feature `__persistent`. -/
def persistentEntryTest (m : MacroIn) : Code := if hasEntry m then persistentArgsEntry m else .nop

/-- macro/src/lib.rs:539-548, 722-733: the test `auto_generate`, if there is one. -/
def autoGenerateTest (m : MacroIn) : Option Code :=
  if hasEntry m && !m.noAutoGenerate then some (.when (.not .testFuzz) .writeAutos) else none

/-! ## Meaning -/

/-- A panic hook: that of the standard library, one that aborts the process, or any other. -/
inductive Hook where
  | standard | abort | other (n : Nat)
  deriving DecidableEq

/-- What is recorded. -/
inductive RecKind where
  | implGenericArgs | genericArgs | args
  deriving DecidableEq

/-- What happens in a process. -/
inductive Ev (V R : Type) where
  | recorded (k : RecKind)
  /-- Recording panicked, or the process was stopped while recording. -/
  | recordFailed (k : RecKind)
  /-- The statements of an instrumented function start. -/
  | body (v : V)
  /-- A harness calls its target. -/
  | call (v : V)
  | hint | warnNontrivial | readStdin
  | showArgs (v : Option V) (pretty : Bool)
  | showRet (r : Option R) (pretty : Bool)
  /-- A panic begins with this hook. -/
  | panicked (h : Hook)
  deriving DecidableEq

structure Proc (V R : Type) where
  world : World
  hook : Hook
  /-- State of the `Once` of `warn_if_test_fuzz_not_enabled`. -/
  warned : Bool
  log : List (Ev V R)

/-- What is fixed while a process runs. -/
structure Setting where
  ctx : Ctx
  plan : Plan
  /-- `cfg(test)` -/
  test : Bool
  stdin : Bytes
  /-- What AFL supplies to `afl::fuzz!`, one after another: outside AFL, the standard input, once. -/
  inputs : List Bytes := [stdin]

/-- An instrumented function. Its arguments, with the types it is instantiated with, are of type `V`. -/
structure Target (V : Type) where
  macro_ : MacroIn
  /-- `std::any::type_name::<Args>()` -/
  typeName : Str
  implTypes : V → List Str
  types : V → List Str
  /-- The bytes recorded for arguments: field expressions and `serde_format::serialize`. -/
  ser : V → Out Bytes
  /-- `read_args` and the call expressions. -/
  de : Bytes → Option V
  /-- For each of the values of `args_from_autos`, what `write_args` serialises it to. -/
  autos : List (Out Bytes)

/-- The variables of generated code. -/
structure Frame (V R : Type) where
  args : Option V
  ret : Option R

section
variable {V R : Type}

/-- Add events. -/
def Proc.note (s : Proc V R) (l : List (Ev V R)) : Proc V R := { s with log := s.log ++ l }

/-- A panic: the hook is called, then the thread unwinds. -/
def raise {α : Type} (s : Proc V R) : Out α × Proc V R :=
  match s.hook with
  | .abort => (.crash, s.note [.panicked .abort])
  | h => (.panic, s.note [.panicked h])

def Guard.eval (e : Env) : Guard → Bool
  | .testFuzz => testFuzzEnabled e
  | .coverage => coverageEnabled e
  | .display => displayEnabled e
  | .replay => replayEnabled e
  | .write => writeEnabled e
  | .not g => !g.eval e
  | .or g h => g.eval e || h.eval e

/-- One recording. The runtime's functions return nothing, and panic if they fail. -/
def record (c : Setting) (k : RecKind) (x : IOm Unit) (s : Proc V R) : Out Unit × Proc V R :=
  match x c.plan s.world with
  | (.ok _, w) => (.ok (), { s with world := w }.note [.recorded k])
  | (.crash, w) => (.crash, { s with world := w }.note [.recordFailed k])
  | (_, w) => raise ({ s with world := w }.note [.recordFailed k])

/-- Recording of arguments: runtime/src/lib.rs:183-187 and the generated `write_args` (macro/src/lib.rs:664-673). -/
def recordArgs (c : Setting) (t : Target V) (v : V) : IOm Unit := do
  let d ← IOm.lift (t.ser v)
  writeArgs c.ctx t.typeName d

/-- Recording of generated values of `Args`: macro/src/lib.rs:729-731. -/
def recordAutos (c : Setting) (t : Target V) : List (Out Bytes) → Proc V R → Out Unit × Proc V R
  | [], s => (.ok (), s)
  | x :: l, s =>
    match record c .args (do writeArgs c.ctx t.typeName (← IOm.lift x)) s with
    | (.ok _, s) => recordAutos c t l s
    | r => r

/-- Continue with a frame. -/
def withFrame (f : Frame V R) : Out Unit × Proc V R → Out (Frame V R) × Proc V R
  | (.ok _, s) => (.ok f, s)
  | (.err e, s) => (.err e, s)
  | (.panic, s) => (.panic, s)
  | (.exit n, s) => (.exit n, s)
  | (.crash, s) => (.crash, s)

/-- Continue with a result. -/
def withRet (f : Frame V R) : Out R × Proc V R → Out (Frame V R) × Proc V R
  | (.ok r, s) => (.ok { f with ret := some r }, s)
  | (.err e, s) => (.err e, s)
  | (.panic, s) => (.panic, s)
  | (.exit n, s) => (.exit n, s)
  | (.crash, s) => (.crash, s)

/-- `afl::fuzz!`, of the crate afl, which is not in the repository: the closure is called with each input; a panic that
gets out of the closure is caught, and the process is aborted. -/
def fuzzInputs (t : Target V) (run : V → Proc V R → Out R × Proc V R) : List Bytes → Proc V R → Out Unit × Proc V R
  | [], s => (.ok (), s)
  | b :: l, s =>
    match t.de b with
    | none => fuzzInputs t run l (s.note [.readStdin])
    | some v =>
      match run v (s.note [.readStdin, .call v]) with
      | (.ok _, s) => fuzzInputs t run l s
      | (.err e, s) => (.err e, s)
      | (.panic, s) => (.crash, s)
      | (.exit n, s) => (.exit n, s)
      | (.crash, s) => (.crash, s)

/-- Execution of generated code; `run` is what `stmts`, `callTarget` or `fuzzLoop` run. -/
def Code.exec (c : Setting) (t : Target V) (run : V → Proc V R → Out R × Proc V R) :
    Code → Frame V R → Proc V R → Out (Frame V R) × Proc V R
  | .nop, f, s => (.ok f, s)
  | .seq a b, f, s =>
    match a.exec c t run f s with
    | (.ok f, s) => b.exec c t run f s
    | r => r
  | .cfgTest a, f, s => if c.test then a.exec c t run f s else (.ok f, s)
  | .cfgNotTest a, f, s => if c.test then (.ok f, s) else a.exec c t run f s
  | .cond g a b, f, s => if g.eval c.ctx.env then a.exec c t run f s else b.exec c t run f s
  | .writeImplGenericArgs, f, s =>
    match f.args with
    | some v => withFrame f (record c .implGenericArgs (TF.writeImplGenericArgs c.ctx t.typeName (t.implTypes v)) s)
    | none => (.ok f, s)
  | .writeGenericArgs, f, s =>
    match f.args with
    | some v => withFrame f (record c .genericArgs (TF.writeGenericArgs c.ctx t.typeName (t.types v)) s)
    | none => (.ok f, s)
  | .writeArgs, f, s =>
    match f.args with
    | some v => withFrame f (record c .args (recordArgs c t v) s)
    | none => (.ok f, s)
  | .stmts, f, s =>
    match f.args with
    | some v => withRet f (run v (s.note [.body v]))
    | none => (.ok f, s)
  | .warnIfTestFuzzNotEnabled, f, s =>
    -- runtime/src/lib.rs:120-133
    if s.warned then (.ok f, s)
    else (.ok f, { s with warned := true }.note (if testFuzzEnabled c.ctx.env then [] else [.hint]))
  | .warnNontrivial, f, s => (.ok f, s.note [.warnNontrivial])
  | .setAbortHook, f, s => (.ok f, { s with hook := .abort })
  -- `std::panic::take_hook` puts the standard hook in place
  | .takeHook, f, s => (.ok f, { s with hook := .standard })
  | .readArgs, f, s => (.ok { f with args := t.de c.stdin }, s.note [.readStdin])
  | .showArgs, f, s => (.ok f, s.note [.showArgs f.args (prettyPrintEnabled c.ctx.env)])
  | .callTarget, f, s =>
    match f.args with
    | some v => withRet f (run v (s.note [.call v]))
    | none => (.ok { f with ret := none }, s)
  | .showRet, f, s => (.ok f, s.note [.showRet f.ret (prettyPrintEnabled c.ctx.env)])
  | .writeAutos, f, s => withFrame f (recordAutos c t t.autos s)
  -- `afl::fuzz!` puts a hook in place that aborts the process
  | .fuzzLoop, f, s => withFrame f (fuzzInputs t run c.inputs { s with hook := .abort })

/-- What the caller gets: `ret` has been set by `stmts`. -/
def returned : Out (Frame V R) × Proc V R → Out R × Proc V R
  | (.ok ⟨_, some r⟩, s) => (.ok r, s)
  | (.ok ⟨_, none⟩, s) => (.panic, s)
  | (.err e, s) => (.err e, s)
  | (.panic, s) => (.panic, s)
  | (.exit n, s) => (.exit n, s)
  | (.crash, s) => (.crash, s)

/-- A call of an instrumented function; `body` is the meaning of the function's own statements. -/
def callInstrumented (c : Setting) (t : Target V) (v : V) (body : Proc V R → Out R × Proc V R) (s : Proc V R) :
    Out R × Proc V R :=
  returned ((instrumentation t.macro_).exec c t (fun _ => body) ⟨some v, none⟩ s)

/-- User code, as far as it matters: a tree of what it does. Simplification: user code does not change the panic hook,
the environment or the standard input, and runs in one thread. -/
inductive Prog (V R : Type) where
  | ret (r : R)
  | panic
  /-- Continue a panic that was caught, or begin one with `resume_unwind`: the hook is not called. -/
  | resume
  /-- The process ends here: abort, exit, killed. -/
  | die
  /-- User code changes files. -/
  | touch (f : FS → FS) (k : Prog V R)
  /-- Call of an instrumented function, with the statements of that function; `k none`: the call panicked. -/
  | call (t : Target V) (v : V) (body : Prog V R) (k : Option R → Prog V R)

def Prog.run (c : Setting) : Prog V R → Proc V R → Out R × Proc V R
  | .ret r, s => (.ok r, s)
  | .panic, s => raise s
  | .resume, s => (.panic, s)
  | .die, s => (.crash, s)
  | .touch f k, s => k.run c { s with world := { s.world with fs := f s.world.fs } }
  | .call t v body k, s =>
    match callInstrumented c t v (body.run c) s with
    | (.ok r, s) => (k (some r)).run c s
    | (.panic, s) => (k none).run c s
    | r => r

/-- The test `entry` of a target, whose statements are `body`. -/
def runHarness (c : Setting) (t : Target V) (body : V → Prog V R) (s : Proc V R) : Out (Frame V R) × Proc V R :=
  (entryTest t.macro_).exec c t (fun v => callInstrumented c t v ((body v).run c)) ⟨none, none⟩ s

/-- The same test compiled with the feature `__persistent`. -/
def runPersistent (c : Setting) (t : Target V) (body : V → Prog V R) (s : Proc V R) : Out (Frame V R) × Proc V R :=
  (persistentEntryTest t.macro_).exec c t (fun v => callInstrumented c t v ((body v).run c)) ⟨none, none⟩ s

/-- macro/src/lib.rs:602-609 `call_in_environment`: what the function given as `execute_with` does with the closure
`|| call`, or the call itself. The function may do something before and after it calls the closure, may call it any
number of times, and decides on the result; `k` is what it does after a call of the closure. -/
def callInEnvironment (wrap : Option (((Option R → Prog V R) → Prog V R) → Prog V R)) (t : Target V)
    (body : V → Prog V R) (c : Setting) (v : V) (s : Proc V R) : Out R × Proc V R :=
  match wrap with
  | none => callInstrumented c t v ((body v).run c) s
  | some w => (w fun k => .call t v (body v) k).run c s

/-- The test `entry` with the attribute's option `execute_with`. -/
def runHarnessIn (c : Setting) (t : Target V) (wrap : Option (((Option R → Prog V R) → Prog V R) → Prog V R))
    (body : V → Prog V R) (s : Proc V R) : Out (Frame V R) × Proc V R :=
  (entryTest t.macro_).exec c t (callInEnvironment wrap t body c) ⟨none, none⟩ s

/-- The test `auto_generate` of a target. -/
def runAutoGenerate (c : Setting) (t : Target V) (s : Proc V R) : Out (Frame V R) × Proc V R :=
  match autoGenerateTest t.macro_ with
  | some code => code.exec c t (fun _ s => (.panic, s)) ⟨none, none⟩ s
  | none => (.ok ⟨none, none⟩, s)

/-- Several harnesses in one process: libtest catches panics. -/
def runHarnesses (c : Setting) : List (Target V × (V → Prog V R)) → Proc V R → Proc V R
  | [], s => s
  | (t, body) :: l, s =>
    match runHarness c t body s with
    | (.crash, s) => s
    | (_, s) => runHarnesses c l s

end

end TF
