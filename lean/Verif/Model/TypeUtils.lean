import Verif.Model.Syntax

/-!
# macro/src/type_utils.rs, and generic parameters in macro/src/lib.rs

`syn`'s visitors visit the parts of a type in the order in which they are written: the qualifying type first, then the
segments with their arguments.
-/

namespace TF

/-! ## Substitution of generic parameters -/

/-- `syn::GenericArgument`. -/
inductive GArg where
  | ty (t : Ty)
  | lifetime (s : Str)
  /-- Constants, bindings, constraints. -/
  | other (ts : List Str)
  deriving DecidableEq

/-- `syn::GenericParam`. -/
inductive GParam where
  | ty (ident : Str)
  | lifetime (s : Str)
  | const (ident : Str)
  deriving DecidableEq

/-- A `BTreeMap<&Ident, &GenericArgument>`. -/
abbrev GMap := Str → Option GArg

/-- `syn::Path::get_ident`. -/
def getIdent (lead : Bool) (segs : Segs) : Option Str :=
  if lead then none
  else match segs.single with
    | some (i, .none) => some i
    | _ => none

/-- What macro/src/type_utils.rs:29-48 looks up: the argument for a type that is just a mapped identifier. -/
def mapped (m : GMap) (q : QSelf) (lead : Bool) (segs : Segs) : Option GArg :=
  match q with
  | .none => (getIdent lead segs).bind m
  | .some .. => none

mutual

/-- macro/src/type_utils.rs:17-22, 28-50 `map_type_generic_params`, `GenericParamVisitor::visit_type_mut`. -/
def Ty.mapParams (m : GMap) : Ty → Out Ty
  | .path q lead segs =>
    match mapped m q lead segs with
    | some (.ty t) => .ok t
    | some _ => .panic
    | none => do
      let q ← q.mapParams m
      let segs ← segs.mapParams m
      .ok (.path q lead segs)
  | .ref lt mu t => do
    let t ← t.mapParams m
    .ok (.ref lt mu t)
  | .slice t => do
    let t ← t.mapParams m
    .ok (.slice t)
  | .other ps => do
    let ps ← ps.mapParams m
    .ok (.other ps)

def QSelf.mapParams (m : GMap) : QSelf → Out QSelf
  | .none => .ok .none
  | .some t pos => do
    let t ← t.mapParams m
    .ok (.some t pos)

/-- macro/src/type_utils.rs:10-15 `map_path_generic_params`. -/
def Segs.mapParams (m : GMap) : Segs → Out Segs
  | .nil => .ok .nil
  | .cons i a r => do
    let a ← a.mapParams m
    let r ← r.mapParams m
    .ok (.cons i a r)

def Args.mapParams (m : GMap) : Args → Out Args
  | .none => .ok .none
  | .angle c ps => do
    let ps ← ps.mapParams m
    .ok (.angle c ps)
  | .paren ps => do
    let ps ← ps.mapParams m
    .ok (.paren ps)

def Pieces.mapParams (m : GMap) : Pieces → Out Pieces
  | .nil => .ok .nil
  | .tok s r => do
    let r ← r.mapParams m
    .ok (.tok s r)
  | .group o c ps r => do
    let ps ← ps.mapParams m
    let r ← r.mapParams m
    .ok (.group o c ps r)
  | .ty t r => do
    let t ← t.mapParams m
    let r ← r.mapParams m
    .ok (.ty t r)
  | .path lead segs r => do
    let segs ← segs.mapParams m
    let r ← r.mapParams m
    .ok (.path lead segs r)

end

/-- macro/src/type_utils.rs:10-15 `map_path_generic_params`. -/
def PathTy.mapParams (m : GMap) (p : PathTy) : Out PathTy := do
  let segs ← p.segs.mapParams m
  .ok ⟨p.lead, segs⟩

/-- macro/src/lib.rs:828-834: type parameters and their arguments. -/
def typePairs : List (GParam × GArg) → List (Str × GArg)
  | [] => []
  | (.ty i, a) :: r => (i, a) :: typePairs r
  | _ :: r => typePairs r

/-- macro/src/lib.rs:810-837 `generic_params_map`. A later entry of a `BTreeMap` replaces an earlier one with the same
key. -/
def genericParamsMap (params : List GParam) (args : List GArg) : Out GMap :=
  if params.length < args.length then .panic
  else .ok fun i => (typePairs ((params.drop (params.length - args.length)).zip args)).reverse.lookup i

/-! ## Turbofish -/

mutual

/-- The tokens of the argument lists `TurbofishVisitor::visit_path_arguments` is called with, in order. -/
def Ty.argLists : Ty → List (List Str)
  | .path q _ segs => q.argLists ++ segs.argLists
  | .ref _ _ t => t.argLists
  | .slice t => t.argLists
  | .other ps => ps.argLists

def QSelf.argLists : QSelf → List (List Str)
  | .none => []
  | .some t _ => t.argLists

def Segs.argLists : Segs → List (List Str)
  | .nil => []
  | .cons _ a r => a.argLists ++ r.argLists

/-- First the argument list itself, then those inside; none for `PathArguments::None`. -/
def Args.argLists : Args → List (List Str)
  | .none => []
  | .angle c ps => (Args.angle c ps).toks :: ps.argLists
  | .paren ps => (Args.paren ps).toks :: ps.argLists

def Pieces.argLists : Pieces → List (List Str)
  | .nil => []
  | .tok _ r => r.argLists
  | .group _ _ ps r => ps.argLists ++ r.argLists
  | .ty t r => t.argLists ++ r.argLists
  | .path _ segs r => segs.argLists ++ r.argLists

end

/-- macro/src/type_utils.rs:77-94: the loop of `visit_path_arguments`, from index `i` on. `none`: not finished within
`fuel` steps. -/
def insertLoop (args : List Str) : (fuel : Nat) → List Str → Nat → Option (List Str)
  | 0, _, _ => none
  | fuel + 1, toks, i =>
    if i + args.length ≤ toks.length then
      if (toks.drop i).take args.length = args ∧ (i < 2 ∨ (toks.drop (i - 2)).take 2 ≠ colon2) then
        insertLoop args fuel (toks.take i ++ colon2 ++ toks.drop i) (i + 2 + 1)
      else insertLoop args fuel toks (i + 1)
    else some toks

/-- The visits, one after the other. -/
def visitAll : List (List Str) → List Str → Option (List Str)
  | [], toks => some toks
  | a :: r, toks => (insertLoop a (toks.length + 2) toks 0).bind (visitAll r)

/-- macro/src/type_utils.rs:59-64 `type_as_turbofish`. -/
def Ty.turbofish (t : Ty) : Option (List Str) := visitAll t.argLists t.toks

/-- macro/src/type_utils.rs:52-57 `path_as_turbofish`. -/
def PathTy.turbofish (p : PathTy) : Option (List Str) :=
  visitAll p.segs.argLists (pathToks none p.lead p.segs.toks)

/-! ## `Self` -/

/-- macro/src/type_utils.rs:149-171 `match_type_path` for `other` of length one; the result is the arguments of the
last segment. A leading `::` does not matter. -/
def matchTypePath (q : QSelf) (segs : Segs) (other : Str) : Option Args :=
  match q with
  | .none =>
    match segs.single with
    | some (i, a) => if i = other then some a else none
    | none => none
  | .some .. => none

def selfIdent : Str := c%"Self"

/-- macro/src/type_utils.rs:114-117 `ExpandSelfVisitor`: the impl's trait, if any, and its type. -/
structure SelfCtx where
  tr : Option PathTy
  self : Ty

/-- macro/src/type_utils.rs:128-143: `Self::..`; `Self` alone with arguments is not parsed. -/
def expandQualified (x : SelfCtx) (segs : Segs) : Out Ty :=
  match x.tr, segs with
  | none, _ => .panic
  | some _, .nil => .panic
  | some _, .cons _ _ .nil => .panic
  | some p, .cons _ _ r => .ok (.path (.some x.self p.segs.length) p.lead (p.segs.append r))

/-- The first of the two cases: `Self`. -/
def isSelf (q : QSelf) (segs : Segs) : Bool := decide (matchTypePath q segs selfIdent = some .none)

/-- The second: a path that begins with `Self`. -/
def beginsWithSelf (q : QSelf) (segs : Segs) : Bool := decide (q = .none) && decide (segs.firstIdent = some selfIdent)

mutual

/-- macro/src/type_utils.rs:105-147 `expand_self`, `ExpandSelfVisitor::visit_type_mut`. -/
def Ty.expandSelf (x : SelfCtx) : Ty → Out Ty
  | .path q lead segs =>
    if isSelf q segs then .ok x.self
    else if beginsWithSelf q segs then expandQualified x segs
    else do
      let q ← q.expandSelf x
      let segs ← segs.expandSelf x
      .ok (.path q lead segs)
  | .ref lt mu t => do
    let t ← t.expandSelf x
    .ok (.ref lt mu t)
  | .slice t => do
    let t ← t.expandSelf x
    .ok (.slice t)
  | .other ps => do
    let ps ← ps.expandSelf x
    .ok (.other ps)

def QSelf.expandSelf (x : SelfCtx) : QSelf → Out QSelf
  | .none => .ok .none
  | .some t pos => do
    let t ← t.expandSelf x
    .ok (.some t pos)

def Segs.expandSelf (x : SelfCtx) : Segs → Out Segs
  | .nil => .ok .nil
  | .cons i a r => do
    let a ← a.expandSelf x
    let r ← r.expandSelf x
    .ok (.cons i a r)

def Args.expandSelf (x : SelfCtx) : Args → Out Args
  | .none => .ok .none
  | .angle c ps => do
    let ps ← ps.expandSelf x
    .ok (.angle c ps)
  | .paren ps => do
    let ps ← ps.expandSelf x
    .ok (.paren ps)

def Pieces.expandSelf (x : SelfCtx) : Pieces → Out Pieces
  | .nil => .ok .nil
  | .tok s r => do
    let r ← r.expandSelf x
    .ok (.tok s r)
  | .group o c ps r => do
    let ps ← ps.expandSelf x
    let r ← r.expandSelf x
    .ok (.group o c ps r)
  | .ty t r => do
    let t ← t.expandSelf x
    let r ← r.expandSelf x
    .ok (.ty t r)
  | .path lead segs r => do
    let segs ← segs.expandSelf x
    let r ← r.expandSelf x
    .ok (.path lead segs r)

end

/-- macro/src/type_utils.rs:173-182 `type_base`. -/
def Ty.base : Ty → Option Str
  | .path _ _ segs => segs.lastIdent
  | _ => none

end TF
