import Verif.Model.TypeUtils
import Verif.Model.Instrument

/-!
# Generated argument structs: macro/src/lib.rs:238-480, 810-1011, 1095-1189

For each argument of the target the macro produces a field of the struct `Args` (identifier and type), an expression
that makes the field's value from the argument, and an expression that makes the argument from the field. The
expressions are modelled as terms, with an evaluator.
-/

namespace TF

/-! ## Inputs -/

/-- `syn::ReceiverKind`. -/
inductive Recv where
  /-- `self` -/
  | value
  /-- `&'a mut self` -/
  | reference (lt : Option Str) (mutable : Bool)
  /-- `self: T` -/
  | typed (t : Ty)
  deriving DecidableEq

/-- A pattern: the identifiers it binds, in order, and whether it is just an identifier (possibly with `mut`). -/
structure PatInfo where
  idents : List Str
  simple : Bool
  deriving DecidableEq

/-- `syn::FnArg`. -/
inductive FnArg where
  | receiver (attrs : List Str) (mutable : Bool) (kind : Recv)
  | typed (attrs : List Str) (pat : PatInfo) (ty : Ty)
  deriving DecidableEq

/-! ## Conversions

`Conversions = BTreeMap<OrdType, (Type, bool)>`. Types are compared by the text of their tokens
(macro/src/ord_type.rs); simplification: types with the same text have the same tokens. -/

structure Conv where
  key : List Str
  value : Ty
  used : Bool
  deriving DecidableEq

abbrev Convs := List Conv

/-- `BTreeMap::insert` (macro/src/lib.rs:281). -/
def Convs.insert (c : Convs) (k v : Ty) : Convs :=
  if c.any (fun e => e.key = k.toks) then c.map fun e => if e.key = k.toks then { e with value := v, used := false } else e
  else c ++ [⟨k.toks, v, false⟩]

/-- macro/src/lib.rs:272-282: each `convert` option has a source and a target type. -/
def Convs.ofOpts (l : List (Ty × Ty)) : Convs := l.foldl (fun c p => c.insert p.1 p.2) []

/-- `conversions.get_mut(..)`. -/
def Convs.get (c : Convs) (t : Ty) : Option Ty := (c.find? fun e => e.key = t.toks).map (·.value)

/-- `*used = true`. -/
def Convs.mark (c : Convs) (t : Ty) : Convs := c.map fun e => if e.key = t.toks then { e with used := true } else e

/-! ## Expressions -/

/-- Expressions for a field of `Args`. -/
inductive SerE where
  /-- `self`, or an identifier. -/
  | var (i : Str)
  /-- `(*e)` -/
  | deref (e : SerE)
  /-- `e.clone()` -/
  | clone (e : SerE)
  /-- `e.to_owned()` -/
  | toOwned (e : SerE)
  /-- `e.to_vec()` -/
  | toVec (e : SerE)
  /-- `<to as test_fuzz::FromRef::<from>>::from_ref(&e)` -/
  | fromRef (to src : Ty) (e : SerE)
  /-- `<ty as std::clone::Clone>::clone(&e)` -/
  | cloneAs (ty : Ty) (e : SerE)
  /-- `std::marker::PhantomData` -/
  | phantom
  deriving DecidableEq

/-- Expressions for an argument of the call. -/
inductive DeE where
  /-- `args.i` -/
  | field (i : Str)
  /-- `<_ as test_fuzz::Into::<_>>::into(args.i)` -/
  | into (i : Str)
  /-- `args.i.as_str()`, `args.i.as_mut_str()` -/
  | asStr (mutable : Bool) (i : Str)
  /-- `args.i.as_slice()`, `args.i.as_mut_slice()` -/
  | asSlice (mutable : Bool) (i : Str)
  /-- `&e`, `&mut e` -/
  | borrow (mutable : Bool) (e : DeE)
  deriving DecidableEq

/-! ## The macro -/

def tyString : Ty := .name c%"String"

def tyVec (t : Ty) : Ty := .path .none false (.cons c%"Vec" (.angle false (.ty t .nil)) .nil)

/-- The type, the two expressions, and the conversions afterwards. -/
structure Mapped where
  ty : Ty
  ser : SerE
  de : DeE
  convs : Convs
  deriving DecidableEq

/-- macro/src/lib.rs:959-971 `map_path_arg`; also 951-955, for types that are neither paths nor references. -/
def mapPathArg (c : Convs) (ident : Str) (e : SerE) (t : Ty) : Mapped := ⟨t, .clone e, .field ident, c⟩

/-- macro/src/lib.rs:928-957 `map_typed_arg` and 973-1011 `map_ref_arg` (the second part). The set of candidates is used
for an error message only and is not modelled. -/
def mapTypedArg (ident : Str) (c : Convs) (e : SerE) : Ty → Mapped
  | .path q lead segs =>
    match c.get (.path q lead segs) with
    | some a => ⟨a, .fromRef a (.path q lead segs) e, .into ident, c.mark (.path q lead segs)⟩
    | none => mapPathArg c ident e (.path q lead segs)
  | .slice t =>
    match c.get (.slice t) with
    | some a => ⟨a, .fromRef a (.slice t) e, .into ident, c.mark (.slice t)⟩
    | none => mapPathArg c ident e (.slice t)
  | .other ps =>
    match c.get (.other ps) with
    | some a => ⟨a, .fromRef a (.other ps) e, .into ident, c.mark (.other ps)⟩
    | none => mapPathArg c ident e (.other ps)
  | .ref lt m t =>
    match c.get (.ref lt m t) with
    | some a => ⟨a, .fromRef a (.ref lt m t) e, .into ident, c.mark (.ref lt m t)⟩
    | none =>
      match t with
      | .path q lead segs =>
        if matchTypePath q segs c%"str" = some .none then ⟨tyString, .toOwned e, .asStr m ident, c⟩
        else
          let r := mapPathArg c ident (.deref e) (.path q lead segs)
          ⟨r.ty, r.ser, .borrow m r.de, r.convs⟩
      | .slice t => ⟨tyVec t, .toVec e, .asSlice m ident, c⟩
      | t =>
        let r := mapTypedArg ident c (.deref e) t
        ⟨r.ty, r.ser, .borrow m r.de, r.convs⟩

/-- macro/src/lib.rs:1186-1189 `anonymous_ident`; `n` is the value of `INDEX`. -/
def anonymousIdent (n : Nat) : Str := '_' :: natStr n

/-- A field of `Args`. -/
structure FieldM where
  attrs : List Str
  ident : Str
  ty : Ty
  ser : SerE
  /-- For a phantom field: none. -/
  de : Option DeE
  deriving DecidableEq

/-- The impl: trait and type. -/
abbrev ImplM := Option SelfCtx

/-- macro/src/lib.rs:871-890, 891-905: identifier, expression and type of an argument, and the next index. -/
def argBasics (im : ImplM) (n : Nat) : FnArg → Out (Str × SerE × Ty × Nat)
  | .receiver _ mutable kind =>
    match im, mutable, kind with
    -- there is no receiver outside of an impl
    | none, _, _ => .panic
    -- `mut T` is not a type
    | some _, true, _ => .panic
    | some x, false, .reference lt m => .ok (anonymousIdent n, .var c%"self", .ref lt m x.self, n + 1)
    | some x, false, _ => .ok (anonymousIdent n, .var c%"self", x.self, n + 1)
  | .typed _ pat ty =>
    match pat.idents with
    | [] =>
      match im with
      | none => .ok (anonymousIdent n, .var (anonymousIdent n), ty, n + 1)
      | some x => do
        let ty ← ty.expandSelf x
        .ok (anonymousIdent n, .var (anonymousIdent n), ty, n + 1)
    | [i] =>
      match im with
      | none => .ok (i, .var i, ty, n)
      | some x => do
        let ty ← ty.expandSelf x
        .ok (i, .var i, ty, n)
    | _ => .panic

def FnArg.attrs : FnArg → List Str
  | .receiver a .. => a
  | .typed a .. => a

/-- macro/src/lib.rs:864-926 `map_arg`. -/
def mapArg (im : ImplM) (c : Convs) (n : Nat) (a : FnArg) : Out (FieldM × Convs × Nat) := do
  let (ident, expr, ty, n) ← argBasics im n a
  if a.attrs.isEmpty then
    let r := mapTypedArg ident c expr ty
    .ok (⟨[], ident, r.ty, r.ser, some r.de⟩, r.convs, n)
  else .ok (⟨a.attrs, ident, ty, .cloneAs ty expr, some (.field ident)⟩, c, n)

/-- macro/src/lib.rs:840-862 `map_args`. -/
def mapArgs (im : ImplM) : Convs → Nat → List FnArg → Out (List FieldM × Convs × Nat)
  | c, n, [] => .ok ([], c, n)
  | c, n, a :: l => do
    let (f, c, n) ← mapArg im c n a
    let (fs, c, n) ← mapArgs im c n l
    .ok (f :: fs, c, n)

def tyPhantom (ps : Pieces) : Ty :=
  .path .none false (.cons c%"std" .none (.cons c%"marker" .none (.cons c%"PhantomData" (.angle false ps) .nil)))

/-- macro/src/lib.rs:1106-1124 `type_generic_phantom_idents_and_types`, and 361-366. -/
def phantomFields : Nat → List GParam → List FieldM × Nat
  | n, [] => ([], n)
  | n, .ty i :: l =>
    let r := phantomFields (n + 1) l
    (⟨[], anonymousIdent n, tyPhantom (.ty (.name i) .nil), .phantom, none⟩ :: r.1, r.2)
  | n, .lifetime s :: l =>
    let r := phantomFields (n + 1) l
    (⟨[], anonymousIdent n, tyPhantom (.ty (.ref (some s) false (.other (.group c%"(" c%")" .nil .nil))) .nil), .phantom,
      none⟩ :: r.1, r.2)
  | n, .const _ :: l => phantomFields n l

/-- The part of the expansion that concerns arguments. -/
structure ArgsIn where
  impl : ImplM
  /-- `combined_generics`: parameters of the impl and of the function. -/
  generics : List GParam
  /-- The `convert` options. -/
  convert : List (Ty × Ty)
  inputs : List FnArg

/-- macro/src/lib.rs:356-425: the fields of `Args`; first those for arguments, then the phantoms. -/
def argsFields (x : ArgsIn) (n : Nat) : Out (List FieldM × Nat) := do
  let ph := phantomFields n x.generics
  let (fs, c, n) ← mapArgs x.impl (Convs.ofOpts x.convert) ph.2 x.inputs
  if c.all (·.used) then .ok (fs ++ ph.1, n) else .panic

/-! ## Values

`A` is the type of all values that the macro does not look into: those of types other than references, `str` and
slices. -/

inductive Val (A : Type) where
  | base (a : A)
  | str (s : Str)
  | slice (l : List A)
  | ref (mutable : Bool) (v : Val A)

/-- What generated code calls: user-defined and library functions. -/
structure Sem (A : Type) where
  clone : A → A
  /-- A `String`; its contents. -/
  string : Str → A
  asStr : A → Str
  /-- A `Vec`; its contents. -/
  vec : List A → A
  asSlice : A → List A
  phantom : A
  /-- `FromRef` from a type to a type. -/
  fromRef : (to src : Ty) → Val A → A
  /-- `Into` from a type to a type. -/
  into : (src to : Ty) → Val A → Val A

section
variable {A : Type} (S : Sem A)

/-- Value of an expression; `none`: it does not compile. -/
def SerE.eval (env : Str → Option (Val A)) : SerE → Option (Val A)
  | .var i => env i
  | .deref e =>
    match e.eval env with
    | some (.ref _ v) => some v
    | _ => none
  | .clone e =>
    match e.eval env with
    | some (.base a) => some (.base (S.clone a))
    | _ => none
  | .toOwned e =>
    match e.eval env with
    | some (.ref _ (.str s)) => some (.base (S.string s))
    | _ => none
  | .toVec e =>
    match e.eval env with
    | some (.ref _ (.slice l)) => some (.base (S.vec (l.map S.clone)))
    | _ => none
  | .fromRef to src e => (e.eval env).map fun v => .base (S.fromRef to src v)
  | .cloneAs _ e =>
    match e.eval env with
    | some (.base a) => some (.base (S.clone a))
    -- shared references are copied; `&mut` is not `Clone`
    | some (.ref false v) => some (.ref false v)
    | _ => none
  | .phantom => some (.base S.phantom)

/-- A value of `Args`: fields with their types. -/
abbrev ArgsVal (A : Type) := List (Str × Ty × Val A)

/-- Value of an expression that is used where a value of a type is expected. -/
def DeE.eval (args : ArgsVal A) : DeE → Ty → Option (Val A)
  | .field i, _ => (args.lookup i).map (·.2)
  | .into i, t => (args.lookup i).map fun p => S.into p.1 t p.2
  | .asStr m i, _ =>
    match args.lookup i with
    | some (_, .base a) => some (.ref m (.str (S.asStr a)))
    | _ => none
  | .asSlice m i, _ =>
    match args.lookup i with
    | some (_, .base a) => some (.ref m (.slice (S.asSlice a)))
    | _ => none
  | .borrow m e, .ref _ m' t => if m = m' then (e.eval args t).map (.ref m) else none
  | .borrow .., _ => none

/-- The value of `Args { .. }`. -/
def buildArgsVal (env : Str → Option (Val A)) : List FieldM → Option (ArgsVal A)
  | [] => some []
  | f :: l =>
    match f.ser.eval S env, buildArgsVal env l with
    | some v, some r => some ((f.ident, f.ty, v) :: r)
    | _, _ => none

/-- The arguments of the call. -/
def callArgs (args : ArgsVal A) : List FieldM → List Ty → Option (List (Val A))
  | [], _ => some []
  | f :: l, ts =>
    match f.de with
    | none => callArgs args l ts
    | some e =>
      match ts with
      | [] => none
      | t :: ts =>
        match e.eval S args t, callArgs args l ts with
        | some v, some r => some (v :: r)
        | _, _ => none

/-- The variable an argument is bound to. -/
def FnArg.binder : FnArg → Option Str
  | .receiver .. => some c%"self"
  | .typed _ ⟨[i], true⟩ _ => some i
  | .typed .. => none

/-- The variables of the target, when it is called with these values. -/
def argEnv : List FnArg → List (Val A) → Str → Option (Val A)
  | a :: l, v :: vs, i => if a.binder = some i then some v else argEnv l vs i
  | _, _, _ => none

/-- The variables where the fields are written: macro/src/lib.rs:494-500 declares two variables there, which hide arguments of
the same names (identifiers made by `quote!` are as if written by the user). They are arrays of `&'static str`; this is not
the type of an argument, as those must be `DeserializeOwned` (unless an attribute of serde says otherwise, which is left out): to
use them for arguments does not compile. -/
def recordingEnv (env : Str → Option (Val A)) : Str → Option (Val A) := fun i =>
  if i = c%"impl_generic_args" ∨ i = c%"generic_args" then none else env i

/-- A serialisation format, for structs with fields of given types and serde attributes. -/
structure Codec (A : Type) where
  enc : List (List Str × Ty) → List (Val A) → Out Bytes
  dec : List (List Str × Ty) → Bytes → Option (List (Val A))

/-- Field types and attributes of `Args`. -/
def schemaOf (fs : List FieldM) : List (List Str × Ty) := fs.map fun f => (f.attrs, f.ty)

/-- `write_args` and the field expressions (macro/src/lib.rs:507-511, 664-673). -/
def serArgs (cd : Codec A) (inputs : List FnArg) (fs : List FieldM) (vs : List (Val A)) : Out Bytes :=
  match buildArgsVal S (recordingEnv (argEnv inputs vs)) fs with
  | some args => cd.enc (schemaOf fs) (args.map (·.2.2))
  -- does not compile
  | none => .panic

/-- `read_args` and the call (macro/src/lib.rs:677-689, 590-600). `tys`: the types of the target's arguments. -/
def deArgs (cd : Codec A) (tys : List Ty) (fs : List FieldM) (b : Bytes) : Option (List (Val A)) :=
  match cd.dec (schemaOf fs) b with
  | some vs => callArgs S (fs.zip vs |>.map fun p => (p.1.ident, p.1.ty, p.2)) fs tys
  | none => none

/-- The instrumented function. `autos`: the generated values of `Args`, by fields (macro/src/lib.rs:1136-1166). -/
def targetOf (cd : Codec A) (m : MacroIn) (typeName : Str) (implTypes types : List (Val A) → List Str)
    (autos : List (List (Val A))) (x : ArgsIn) (tys : List Ty) (fs : List FieldM) : Target (List (Val A)) where
  macro_ := m
  typeName := typeName
  implTypes := implTypes
  types := types
  ser := serArgs S cd x.inputs fs
  de := deArgs S cd tys fs
  autos := autos.map (cd.enc (schemaOf fs))

end

end TF
