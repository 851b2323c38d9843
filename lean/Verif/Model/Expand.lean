import Verif.Model.Args

/-!
# The macros: macro/src/lib.rs:49-170, 198-808, 1013-1104, 1168-1184

The parts modelled in `Model/Args.lean`, `Model/Instrument.lean` and `Model/TypeUtils.lean`, put together. Parsing of Rust is not
modelled: attributes, options and items are given as parsed. Also not modelled: spans, `bounds`, where clauses and bounds of
type parameters, `execute_with`, and the features `__persistent` and `__cast_checks`. Logging is in `Model/Log.lean`.
-/

namespace TF

/-- macro/src/lib.rs:175-196 `TestFuzzOpts`. -/
structure AttrOpts where
  convert : List (Ty × Ty) := []
  enableInProduction : Bool := false
  genericArgs : Option (List GArg) := none
  implGenericArgs : Option (List GArg) := none
  noAutoGenerate : Bool := false
  onlyGenericArgs : Bool := false
  rename : Option Str := none
  deriving DecidableEq

/-- What is in the parentheses of an attribute. -/
inductive AttrArgs where
  /-- There are none, or they are not tokens. -/
  | absent
  /-- Not a list of options. -/
  | bad
  | opts (o : AttrOpts)
  deriving DecidableEq

/-- An attribute: the identifiers of its path, its text, and its arguments seen as options of `test_fuzz`. -/
structure AttrM where
  path : List Str
  text : Str
  args : AttrArgs
  deriving DecidableEq

/-- A function or method. `vis`: visibility and `default`. -/
structure FnIn where
  attrs : List AttrM
  vis : Str
  name : Str
  generics : List GParam
  inputs : List FnArg
  output : Option Ty
  stmts : List Str
  deriving DecidableEq

/-- The impl a method is in. -/
structure ImplIn where
  generics : List GParam
  ctx : SelfCtx

/-- The function that replaces a target: `code` comes with the target's statements. -/
structure MethodM where
  attrs : List AttrM
  vis : Str
  name : Str
  generics : List GParam
  inputs : List FnArg
  output : Option Ty
  code : Code
  stmts : List Str
  deriving DecidableEq

/-- The module that is generated for a target. -/
structure ModuleM where
  ident : Str
  /-- `#[cfg(test)]` -/
  cfgTest : Bool
  /-- Fields of `Args`; none: `struct Args;` -/
  fields : Option (List FieldM)
  /-- `Args::RetTy` -/
  retTy : Ty
  /-- The arguments for `Args` in `args_ret_ty`. -/
  retArgs : List GArg
  /-- What is called, up to the argument list. -/
  callee : List Str
  entry : Code
  autoGenerate : Option Code
  deriving DecidableEq

/-- macro/src/lib.rs:1168-1182 `mod_ident`. -/
def modIdent (rename base : Option Str) (target : Str) : Str :=
  (match rename with
    | some r => r
    | none => (match base with | some b => b ++ c%"_" | none => []) ++ target) ++ c%"_fuzz__"

/-- `Ident::new`, macro/src/lib.rs:1181, for texts made of identifiers and underscores: it panics just if one of these is a raw
identifier (`r#name`), whose text is no identifier. -/
def identNew (s : Str) : Out Str := if '#' ∈ s then .panic else .ok s

/-- macro/src/lib.rs:1024-1029 `is_test_fuzz`. -/
def AttrM.isTestFuzz (a : AttrM) : Bool := a.path.all (· = c%"test_fuzz")

/-- macro/src/lib.rs:1013-1022 `opts_from_attr`. -/
def AttrM.testFuzzOpts (a : AttrM) : Out AttrOpts :=
  match a.args with
  | .absent => .ok {}
  | .bad => .panic
  | .opts o => .ok o

/-- macro/src/lib.rs:1040-1048 `is_generic`. -/
def isGeneric (gs : List GParam) : Bool := gs.any fun | .lifetime _ => false | _ => true

/-- macro/src/lib.rs:1050-1062 `type_idents`; also `type_params()`. -/
def typeIdents : List GParam → List Str
  | [] => []
  | .ty i :: l => i :: typeIdents l
  | _ :: l => typeIdents l

/-- Number of lifetime parameters. -/
def lifetimeParams : List GParam → Nat
  | [] => 0
  | .lifetime _ :: l => lifetimeParams l + 1
  | _ :: l => lifetimeParams l

/-- Number of lifetime arguments. -/
def lifetimeArgs : List GArg → Nat
  | [] => 0
  | .lifetime _ :: l => lifetimeArgs l + 1
  | _ :: l => lifetimeArgs l

/-- macro/src/lib.rs:1084-1093 `combine_options`, for lists. -/
def combineArgs : Option (List GArg) → Option (List GArg) → Option (List GArg)
  | some x, some y => some (x ++ y)
  | x, none => x
  | none, y => y

/-- macro/src/lib.rs:379-396 `combined_generic_args_with_dummy_lifetimes`. -/
def withDummyLifetimes (gs : List GParam) (as : Option (List GArg)) : Out (List GArg) :=
  let as := as.getD []
  if lifetimeParams gs < lifetimeArgs as then .panic
  else .ok (as ++ List.replicate (lifetimeParams gs - lifetimeArgs as) (.lifetime c%"static"))

/-- Tokens of a generic argument. -/
def GArg.toks : GArg → List Str
  | .ty t => t.toks
  | .lifetime s => [c%"'", s]
  | .other ts => ts

/-- Tokens of a list of generic arguments, with commas in between. -/
def garsToks : List GArg → List Str
  | [] => []
  | [a] => a.toks
  | a :: b :: l => a.toks ++ [c%","] ++ garsToks (b :: l)

/-- macro/src/lib.rs:1126-1130 `args_as_turbofish`. -/
def argsAsTurbofish : Option (List GArg) → List Str
  | none => []
  | some l => colon2 ++ [c%"<"] ++ garsToks l ++ [c%">"]

/-- macro/src/lib.rs:574-601 `call`, without the argument list. (`type_as_turbofish` always terminates:
`C53_terminates`.) -/
def calleeToks (im : Option ImplIn) (o : AttrOpts) (name : Str) : Out (List Str) :=
  match im with
  | none => .ok ([c%"super"] ++ colon2 ++ [name] ++ argsAsTurbofish o.genericArgs)
  | some x => do
    let m ← genericParamsMap x.generics (o.implGenericArgs.getD [])
    let t ← x.ctx.self.mapParams m
    let ts := t.turbofish.getD []
    match x.ctx.tr with
    | none => .ok (ts ++ colon2 ++ [name] ++ argsAsTurbofish o.genericArgs)
    | some p => do
      let p ← p.mapParams m
      .ok ([c%"<"] ++ ts ++ [c%"as"] ++ p.turbofish.getD [] ++ [c%">"] ++ colon2 ++ [name] ++ argsAsTurbofish o.genericArgs)

/-- What the instrumentation depends on. -/
def macroIn (im : Option ImplIn) (o : AttrOpts) (f : FnIn) : MacroIn where
  onlyGenericArgs := o.onlyGenericArgs
  enableInProduction := o.enableInProduction
  noAutoGenerate := o.noAutoGenerate
  implGenericArgs := o.implGenericArgs.isSome
  genericArgs := o.genericArgs.isSome
  implTypeParams := (typeIdents ((im.map (·.generics)).getD [])).length
  typeParams := (typeIdents f.generics).length
  numStmts := f.stmts.length

/-- `std::mem::take(fn_arg_attrs)` (macro/src/lib.rs:913). -/
def FnArg.bare : FnArg → FnArg
  | .receiver _ m k => .receiver [] m k
  | .typed _ p t => .typed [] p t

/-- macro/src/lib.rs:436-442 `ret_ty`. -/
def retTy (im : Option ImplIn) (f : FnIn) : Out Ty :=
  match f.output, im with
  | none, _ => .ok (.other (.group c%"(" c%")" .nil .nil))
  | some t, none => .ok t
  | some t, some x => t.expandSelf x.ctx

/-- The input of `argsFields`. -/
def argsIn (im : Option ImplIn) (o : AttrOpts) (f : FnIn) : ArgsIn :=
  ⟨im.map (·.ctx), (im.map (·.generics)).getD [] ++ f.generics, o.convert, f.inputs⟩

/-- macro/src/lib.rs:238-808 `map_method_or_fn`; `fuzzing` is `cfg(fuzzing)`, `n` the value of `INDEX`. -/
def mapMethodOrFn (fuzzing : Bool) (im : Option ImplIn) (o : AttrOpts) (f : FnIn) (n : Nat) :
    Out (MethodM × ModuleM × Nat) := do
  if fuzzing && !o.onlyGenericArgs &&
      ((isGeneric ((im.map (·.generics)).getD []) && o.implGenericArgs.isNone) ||
        (isGeneric f.generics && o.genericArgs.isNone)) then .panic
  else
    let retArgs ← withDummyLifetimes ((im.map (·.generics)).getD [] ++ f.generics)
      (combineArgs o.implGenericArgs o.genericArgs)
    let (fields, n) ← argsFields (argsIn im o f) n
    let ret ← retTy im f
    let callee ← calleeToks im o f.name
    let ident ← identNew (modIdent o.rename (im.bind (·.ctx.self.base)) f.name)
    let m := macroIn im o f
    .ok (⟨f.attrs, f.vis, f.name, f.generics, f.inputs.map (·.bare), f.output, instrumentation m, f.stmts⟩,
      ⟨ident, !o.enableInProduction, if o.onlyGenericArgs then none else some fields, ret, retArgs, callee, entryTest m, autoGenerateTest m⟩, n)

/-! ## Impls -/

/-- An item of an impl: a function, or anything else. -/
inductive ItemIn where
  | fn (f : FnIn)
  | other (s : Str)
  deriving DecidableEq

inductive ItemOut where
  | fn (f : FnIn)
  | method (m : MethodM)
  | other (s : Str)
  deriving DecidableEq

/-- macro/src/lib.rs:142-170 `map_impl_item_fn`. -/
def mapImplItemFn (fuzzing : Bool) (x : ImplIn) (f : FnIn) (n : Nat) : Out (ItemOut × Option ModuleM × Nat) :=
  match f.attrs.findIdx? (·.isTestFuzz) with
  | none => .ok (.fn f, none, n)
  | some i =>
    match f.attrs[i]? with
    -- `i` is a position of the list
    | none => .panic
    | some a => do
      let o ← a.testFuzzOpts
      let (m, mo, n) ← mapMethodOrFn fuzzing (some x) o { f with attrs := f.attrs.eraseIdx i } n
      .ok (.method m, some mo, n)

/-- macro/src/lib.rs:118-132 `map_impl_item`. -/
def mapImplItem (fuzzing : Bool) (x : ImplIn) (it : ItemIn) (n : Nat) : Out (ItemOut × Option ModuleM × Nat) :=
  match it with
  | .fn f => mapImplItemFn fuzzing x f n
  | .other s => .ok (.other s, none, n)

/-- macro/src/lib.rs:101-116 `map_impl_items`. -/
def mapImplItems (fuzzing : Bool) (x : ImplIn) : List ItemIn → Nat → Out (List ItemOut × List ModuleM × Nat)
  | [], n => .ok ([], [], n)
  | it :: l, n => do
    let (it, mo, n) ← mapImplItem fuzzing x it n
    let (its, mos, n) ← mapImplItems fuzzing x l n
    .ok (it :: its, mo.toList ++ mos, n)

/-- macro/src/lib.rs:198-230 `test_fuzz`: the function and the module. -/
def testFuzz (fuzzing : Bool) (args : AttrArgs) (f : FnIn) (n : Nat) : Out (MethodM × ModuleM × Nat) := do
  let o ← (⟨[c%"test_fuzz"], [], args⟩ : AttrM).testFuzzOpts
  mapMethodOrFn fuzzing none o f n

/-- macro/src/lib.rs:49-99 `test_fuzz_impl`: the items, the modules, and whether a warning is printed. -/
def testFuzzImpl (fuzzing : Bool) (x : ImplIn) (items : List ItemIn) (n : Nat) :
    Out (List ItemOut × List ModuleM × Bool × Nat) := do
  let (its, mos, n) ← mapImplItems fuzzing x items n
  .ok (its, mos, mos.isEmpty, n)

end TF
