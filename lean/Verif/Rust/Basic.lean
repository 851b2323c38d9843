/-!
# Outcomes, strings, bytes

The part of Rust every model file relies on.
-/

namespace TF

/-- Text (`str`, `String`; also `OsStr` where the code only handles Unicode text): a list of
Unicode scalar values. Rust stores UTF-8; byte offsets matter only in `prefix_with_width`
(cargo-test-fuzz/src/lib.rs:1187-1202), which is modelled on bytes separately. -/
abbrev Str := List Char

/-- `c%"abc"` is the text `abc` as an explicit list of characters. -/
macro:max "c%" s:str : term => do
  let cs := s.getString.toList.map fun c => Lean.Syntax.mkCharLit c
  `([$(cs.toArray),*])

/-- Byte strings (`Vec<u8>`, `&[u8]`). -/
abbrev Bytes := List UInt8

/-- Outcome of a computation of the Rust program.
* `ok`    – `Ok(a)`, or plain return;
* `err`   – `Err(e)`; the message is kept;
* `panic` – a Rust panic (assert, unwrap, index out of bounds, unreachable, overflow check);
* `exit`  – `std::process::exit(code)`;
* `crash` – the process was killed, or the machine stopped, at this point. -/
inductive Out (α : Type u) where
  | ok (a : α)
  | err (e : Str)
  | panic
  | exit (code : Nat)
  | crash
  deriving DecidableEq, Repr

namespace Out

/-- Sequencing: every outcome but `ok` ends the computation (`?` for `err`, unwinding for `panic`). -/
def bind {α : Type u} {β : Type v} (x : Out α) (f : α → Out β) : Out β :=
  match x with
  | ok a => f a
  | err e => err e
  | panic => panic
  | exit c => exit c
  | crash => crash

instance : Monad Out where
  pure := Out.ok
  bind := Out.bind

@[simp] theorem pure_eq {α : Type u} (a : α) : (pure a : Out α) = Out.ok a := rfl
@[simp] theorem ok_bind {α β : Type u} (a : α) (f : α → Out β) : (Out.ok a >>= f) = f a := rfl
@[simp] theorem err_bind {α β : Type u} (e : Str) (f : α → Out β) : (Out.err e >>= f) = Out.err e := rfl
@[simp] theorem panic_bind {α β : Type u} (f : α → Out β) : (Out.panic >>= f) = Out.panic := rfl
@[simp] theorem exit_bind {α β : Type u} (c : Nat) (f : α → Out β) : (Out.exit c >>= f) = Out.exit c := rfl
@[simp] theorem crash_bind {α β : Type u} (f : α → Out β) : (Out.crash >>= f) = Out.crash := rfl

end Out

/-- Rust's `assert!(c)`. -/
def assert (c : Bool) : Out Unit := if c then .ok () else .panic

/-- anyhow's `ensure!(c, msg)`. -/
def ensure (c : Bool) (msg : Str) : Out Unit := if c then .ok () else .err msg

end TF
