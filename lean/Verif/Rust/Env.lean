import Verif.Rust.Str

/-!
# Process environments
-/

namespace TF

/-- The value of an environment variable: valid Unicode or not. -/
inductive OsVal where
  | utf8 (s : Str)
  | other (b : Bytes)
  deriving DecidableEq, Repr

/-- A process environment. Keys are Unicode here: the code only ever uses Unicode keys. -/
abbrev Env := Str → Option OsVal

/-- `std::env::var(key).ok()`: set and valid Unicode. -/
def Env.var (e : Env) (key : Str) : Option Str :=
  match e key with
  | some (.utf8 s) => some s
  | _ => none

/-- `Command::env(k, v)`: what the child sees. -/
def Env.set (e : Env) (k v : Str) : Env := fun x => if x = k then some (.utf8 v) else e x

/-- `Command::envs(list)`: later entries override earlier ones. -/
def Env.setAll (e : Env) : List (Str × Str) → Env
  | [] => e
  | (k, v) :: r => Env.setAll (e.set k v) r

end TF
