import Verif.Model.Args
import Verif.Model.Instrument
import Verif.Model.TryDebug

/-!
# The text shown for arguments and results: macro/src/lib.rs:549-571, 635-656, 690-697, 864-926

The generated code prints an `Args` with `{:?}` or `{:#?}`, and its `Debug` uses `debug_struct`; likewise for `Ret` and
`debug_tuple`. Both are modelled as `core::fmt::builders` has them.

Simplifications: the `Debug` of a value always succeeds, and what it writes depends on the value and on the `#` only;
writing to standard error succeeds.
-/

namespace TF

/-- What the `Debug` of a value writes, with or without `#`: the pieces passed to `write_str`, in order. -/
abbrev Dbg := Bool → List Str

/-! ## `core::fmt::builders` -/

/-- `str::split_inclusive('\n')`. -/
def splitInclusive : Str → List Str
  | [] => []
  | c :: s =>
    if c = '\n' then [c] :: splitInclusive s
    else
      match splitInclusive s with
      | [] => [[c]]
      | l :: r => (c :: l) :: r

/-- The loop of `PadAdapter::write_str`. `nl`: `on_newline`. -/
def padLines (nl : Bool) : List Str → List Str × Bool
  | [] => ([], nl)
  | s :: r =>
    let x := padLines (s.getLast? == some '\n') r
    ((if nl then [c%"    ", s] else [s]) ++ x.1, x.2)

/-- The calls of `PadAdapter::write_str`, one for each piece. -/
def padPieces (nl : Bool) : List Str → List Str × Bool
  | [] => ([], nl)
  | s :: r =>
    let x := padLines nl (splitInclusive s)
    let y := padPieces x.2 r
    (x.1 ++ y.1, y.2)

/-- `DebugStruct::field` for each field. `has`: `has_fields`. In the pretty form each field has a `PadAdapter` of its own,
whose state begins with `on_newline`. -/
def structFields (alt : Bool) (has : Bool) : List (Str × Dbg) → List Str
  | [] => []
  | (name, v) :: r =>
    (if alt then
      (if has then [] else [c%" {\n"]) ++ (padPieces true ([name, c%": "] ++ v alt ++ [c%",\n"])).1
    else [if has then c%", " else c%" { ", name, c%": "] ++ v alt) ++ structFields alt true r

/-- `Formatter::debug_struct`, the fields, and `DebugStruct::finish`. -/
def debugStruct (name : Str) (fields : List (Str × Dbg)) : Dbg := fun alt =>
  [name] ++ structFields alt false fields ++
    (if fields.isEmpty then [] else if alt then [c%"}"] else [c%" }"])

/-- `DebugTuple::field` for each field. -/
def tupleFields (alt : Bool) (first : Bool) : List Dbg → List Str
  | [] => []
  | v :: r =>
    (if alt then (if first then [c%"(\n"] else []) ++ (padPieces true (v alt ++ [c%",\n"])).1
    else [if first then c%"(" else c%", "] ++ v alt) ++ tupleFields alt false r

/-- `Formatter::debug_tuple`, the fields, and `DebugTuple::finish`. The special case of a tuple without a name
does not arise: it is for one value, and the only tuples without a name here are pairs. -/
def debugTuple (name : Str) (fields : List Dbg) : Dbg := fun alt =>
  [name] ++ tupleFields alt true fields ++ (if fields.isEmpty then [] else [c%")"])

/-! ## Values -/

/-- What is known about a value that is to be shown: its type is `Debug`, or has just a name. -/
inductive Shown where
  | debug (d : Dbg)
  | unknown (typeName : Str)

/-- runtime/src/lib.rs:25-61: what `TryDebug::apply` passes on. `DebugUnimplemented` writes with one `write!`; in how
many pieces does not matter (`C77_pieces`). -/
def Shown.dbg : Shown → Out Dbg
  | .debug d => .ok d
  | .unknown t => do
    let s ← debugUnimplemented (tryDebugName t)
    .ok fun _ => [s]

/-- The statements `fmt_args`, one after the other. -/
def Shown.dbgs : List (Str × Shown) → Out (List (Str × Dbg))
  | [] => .ok []
  | (n, v) :: r => do
    let d ← v.dbg
    let l ← Shown.dbgs r
    .ok ((n, d) :: l)

/-- macro/src/lib.rs:690-697: `Debug` for `Args`. -/
def argsDebug (fields : List (Str × Shown)) : Out Dbg := do
  let l ← Shown.dbgs fields
  .ok (debugStruct c%"Args" l)

/-- macro/src/lib.rs:638-647: `Debug` for `Ret`. -/
def retDebug (v : Shown) : Out Dbg := do
  let d ← v.dbg
  .ok (debugTuple c%"Ret" [d])

/-- macro/src/lib.rs:555-563, 649-656: what is printed for a value, if there is one; a newline in any case. -/
def outputOpt (pretty : Bool) (x : Option (Out Dbg)) : Out Str :=
  match x with
  | none => .ok c%"\n"
  | some d => do
    let d ← d
    .ok ((d pretty).flatten ++ c%"\n")

/-- The text that the events of a process write to standard error for arguments and results. `args`: names and values
of the fields of `Args`; `ret`: the value returned. Other texts (hint, warnings, messages of panics, what the target
itself prints) are left out. -/
def shownText {V R : Type} (args : V → List (Str × Shown)) (ret : R → Shown) : List (Ev V R) → Out Str
  | [] => .ok []
  | .showArgs v pretty :: l => do
    let s ← outputOpt pretty (v.map fun v => argsDebug (args v))
    let r ← shownText args ret l
    .ok (s ++ r)
  | .showRet r pretty :: l => do
    let s ← outputOpt pretty (r.map fun r => retDebug (ret r))
    let r ← shownText args ret l
    .ok (s ++ r)
  | _ :: l => shownText args ret l

/-! ## Names -/

/-- macro/src/lib.rs:887-893, 907-912: the name under which a field is shown. -/
def FnArg.shownName (ident : Str) : FnArg → Str
  | .receiver .. => c%"self"
  | .typed .. => ident

/-- The statements `fmt_args`: name shown, and field. They are made with the fields for arguments, which come first; the
phantoms that follow (`argsFields`) have none. -/
def fmtArgs : List FnArg → List FieldM → List (Str × Str)
  | a :: l, f :: r => (a.shownName f.ident, f.ident) :: fmtArgs l r
  | _, _ => []

end TF
