import Verif.Model.Expand

/-!
# Names in the generated module: macro/src/lib.rs:464-492, 661-725, 786-808

What names stand for in the module that is generated for a target, where the types of the target are written again. Resolution
of paths is modelled for modules, imports and preludes of one crate, in the namespace of types: an import is an entry of the
module it is in. Visibility and macros are not modelled.
-/

namespace TF

/-- What a name can stand for: a module, given by its path with the innermost name first, or something else, given by its
name and the module it is defined in. -/
inductive Ent where
  | module (m : List Str)
  | item (m : List Str) (name : Str)
  deriving DecidableEq

/-- The names of each module, and those that are known everywhere: other crates, the prelude, primitive types. -/
structure CrateM where
  named : List Str → Str → Option Ent
  prelude : Str → Option Ent
  crates : Str → Option Ent

/-- How a path begins. -/
inductive Start where
  | plain
  /-- `self::` -/
  | self
  /-- `super::`, repeated as often and once more -/
  | super (k : Nat)
  /-- `crate::` -/
  | crate
  /-- `::` -/
  | global
  deriving DecidableEq

structure PathRef where
  start : Start
  segs : List Str

/-- Where a path is: a module, the items of blocks around, and generic parameters. -/
structure Place where
  mod : List Str
  block : Str → Option Ent := fun _ => none
  params : List Str := []

/-- What a path stands for, with the segments that are left (associated items). -/
inductive Meaning where
  | param (name : Str) (rest : List Str)
  | ent (e : Ent) (rest : List Str)
  deriving DecidableEq

/-- The segments after something. -/
def CrateM.walk (c : CrateM) (e : Ent) : List Str → Option Meaning
  | [] => some (.ent e [])
  | s :: l =>
    match e with
    | .module m =>
      match c.named m s with
      | some e' => c.walk e' l
      | none => none
    | .item _ _ => some (.ent e (s :: l))

/-- The module some levels up. -/
def modUp : Nat → List Str → Option (List Str)
  | 0, m => some m
  | _ + 1, [] => none
  | k + 1, _ :: m => modUp k m

/-- A single name. -/
def CrateM.lookup (c : CrateM) (p : Place) (s : Str) : Option Ent :=
  match p.block s with
  | some e => some e
  | none =>
    match c.named p.mod s with
    | some e => some e
    | none => c.prelude s

/-- A path. -/
def CrateM.resolve (c : CrateM) (p : Place) (r : PathRef) : Option Meaning :=
  match r.segs with
  | [] => none
  | s :: l =>
    match r.start with
    | .plain =>
      if s ∈ p.params then some (.param s l)
      else (c.lookup p s).bind fun e => c.walk e l
    | .self => (c.named p.mod s).bind fun e => c.walk e l
    | .super k => (modUp (k + 1) p.mod).bind fun m => (c.named m s).bind fun e => c.walk e l
    | .crate => (c.named [] s).bind fun e => c.walk e l
    | .global => (c.crates s).bind fun e => c.walk e l

/-- The types and traits that the module declares: macro/src/lib.rs:478-492, 675, 701. -/
def moduleNames (onlyGenericArgs : Bool) : List Str :=
  if onlyGenericArgs then [c%"Args"] else [c%"Args", c%"UsingReader", c%"HasRetTy"]

/-- The crate with the generated module: macro/src/lib.rs:797-812. `nested`: the target is in a block, so that the module is
an item of that block and not of the module around it. `use super::*` imports all names of the latter, except those that are
declared. -/
def CrateM.withTarget (c : CrateM) (only nested : Bool) (m : List Str) (x : Str) : CrateM where
  named m' s :=
    let outer := if s = x ∧ nested = false then some (.module (x :: m)) else c.named m s
    if m' = x :: m then (if s ∈ moduleNames only then some (.item (x :: m) s) else outer)
    else if m' = m then outer
    else c.named m' s
  prelude := c.prelude
  crates := c.crates

/-- The items of blocks around a target, with its module if it is nested. -/
def blockOf (nested : Bool) (block : Str → Option Ent) (m : List Str) (x : Str) (s : Str) : Option Ent :=
  if nested then (if s = x then some (.module (x :: m)) else block s) else none

/-- Where the target is. -/
def targetPlace (nested : Bool) (block : Str → Option Ent) (m : List Str) (x : Str) (params : List Str) : Place :=
  ⟨m, blockOf nested block m x, params⟩

/-- The body of the module. -/
def modulePlace (m : List Str) (x : Str) (params : List Str) : Place := ⟨x :: m, fun _ => none, params⟩

/-- The bodies of `write_args` and `read_args`, with a struct `Args` of their own: macro/src/lib.rs:665-668, 679-682. -/
def innerPlace (m : List Str) (x : Str) (params : List Str) : Place :=
  ⟨x :: m, fun s => if s = c%"Args" then some (.item (c%"fn" :: x :: m) s) else none, params⟩

/-- The block with `struct Ret`, in which no parameters are known: macro/src/lib.rs:637-652. -/
def retPlace (m : List Str) (x : Str) : Place :=
  ⟨x :: m, fun s => if s = c%"Ret" then some (.item (c%"entry" :: x :: m) s) else none, []⟩

/-- The block of `auto_impl!`, which declares a trait and a struct: runtime/src/lib.rs:74-92. The names of items that a macro by
example declares are visible to what it is given. -/
def autoPlace (m : List Str) (x : Str) (params : List Str) : Place :=
  ⟨x :: m, fun s => if s = c%"Auto" ∨ s = c%"AutoFallback" then some (.item (c%"auto" :: x :: m) s) else none, params⟩

/-- `#mod_ident :: Args`: macro/src/lib.rs:501, 508, 684. -/
def modArgs (x : Str) : PathRef := ⟨.plain, [x, c%"Args"]⟩

end TF
