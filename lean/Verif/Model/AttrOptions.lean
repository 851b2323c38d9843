import Verif.Model.Expand

/-!
# Options of the attributes: macro/src/lib.rs:46-54, 175-202, 269-289, 340-350, 602-604, 1013-1038

What `#[derive(FromMeta)]` of darling makes of `TestFuzzOpts` and `TestFuzzImplOpts`, and what is then made of the texts.
darling (0.24) is not in the repository: its generated `from_list` and its readers of values are modelled from memory of its
source. How Rust is tokenized and parsed is a parameter.
-/

namespace TF

/-- The value in `name = value`. -/
inductive ValM where
  | str (s : Str)
  | bool (b : Bool)
  /-- A path of one identifier -/
  | ident (s : Str)
  /-- Inside of invisible delimiters, as produced by macros -/
  | group (v : ValM)
  | other

/-- `syn::Meta`; `name`: the segments of the path with `::` in between. -/
inductive MetaM where
  | word (name : Str)
  | list (name : Str)
  | value (name : Str) (v : ValM)

def MetaM.name : MetaM → Str
  | .word n => n
  | .list n => n
  | .value n _ => n

/-- `darling::ast::NestedMeta`. -/
inductive NestedM where
  | item (m : MetaM)
  | lit

/-- Options whose values are texts; `rename` is an identifier. -/
inductive TextOpt where
  | bounds | executeWith | genericArgs | implGenericArgs | rename
  deriving DecidableEq

inductive FlagOpt where
  | enableInProduction | noAutoGenerate | onlyGenericArgs
  deriving DecidableEq

inductive OptKey where
  | text (o : TextOpt)
  | flag (o : FlagOpt)
  | convert
  deriving DecidableEq

/-- The fields of `TestFuzzOpts`, by name; macro/src/lib.rs:177-196. -/
def optKey (n : Str) : Option OptKey :=
  if n = c%"bounds" then some (.text .bounds)
  else if n = c%"convert" then some .convert
  else if n = c%"enable_in_production" then some (.flag .enableInProduction)
  else if n = c%"execute_with" then some (.text .executeWith)
  else if n = c%"generic_args" then some (.text .genericArgs)
  else if n = c%"impl_generic_args" then some (.text .implGenericArgs)
  else if n = c%"no_auto_generate" then some (.flag .noAutoGenerate)
  else if n = c%"only_generic_args" then some (.flag .onlyGenericArgs)
  else if n = c%"rename" then some (.text .rename)
  else none

/-- How Rust is read. `bareIdents`: whether darling reads `rename = name` like `rename = "name"`. -/
structure OptSyntax where
  ident : Str → Bool
  bareIdents : Bool
  /-- `Punctuated<Type, Comma>` -/
  types : Str → Option (List Ty)
  /-- `Punctuated<GenericArgument, Comma>` -/
  args : Str → Option (List GArg)
  /-- `Punctuated<WherePredicate, Comma>` -/
  predicates : Str → Bool
  expr : Str → Bool

/-- `FromMeta` for `String`, from an expression. -/
def ValM.toText : ValM → Option Str
  | .str s => some s
  | .group v => v.toText
  | _ => none

/-- `FromMeta` for `bool`, from an expression. -/
def ValM.toBool : ValM → Option Bool
  | .bool b => some b
  | .str s => if s = c%"true" then some true else if s = c%"false" then some false else none
  | .group v => v.toBool
  | _ => none

/-- `FromMeta` for `Ident`, from an expression. -/
def ValM.toIdent (x : OptSyntax) : ValM → Option Str
  | .str s => if x.ident s then some s else none
  | .ident s => if x.bareIdents then some s else none
  | .group v => v.toIdent x
  | _ => none

/-- `FromMeta` for `Option<String>` and `Option<Ident>`: a word or a list is an error. -/
def readText (x : OptSyntax) (o : TextOpt) : MetaM → Option Str
  | .value _ v => match o with
    | .rename => v.toIdent x
    | _ => v.toText
  | _ => none

/-- `FromMeta` for `bool`: a word is true. -/
def readFlag : MetaM → Option Bool
  | .word _ => some true
  | .value _ v => v.toBool
  | .list _ => none

/-- What the generated `from_list` has for a field: whether it was seen, and its value. -/
structure Slot (α : Type) where
  seen : Bool := false
  val : Option α := none

/-- A value, or an error, for a field. -/
def Slot.put {α : Type} (s : Slot α) (v : Option α) : Slot α := if s.seen then s else ⟨true, v⟩

/-- Whether there is an error: a second one, or one without value. -/
def Slot.errs {α : Type} (s : Slot α) (v : Option α) : Nat := if s.seen then 1 else match v with | some _ => 0 | none => 1

/-- The state of the generated `from_list`, with the number of errors. -/
structure OptState where
  texts : TextOpt → Slot Str := fun _ => {}
  flags : FlagOpt → Slot Bool := fun _ => {}
  convert : List Str := []
  errs : Nat := 0

/-- One item. -/
def OptState.step (x : OptSyntax) (s : OptState) : NestedM → OptState
  | .lit => { s with errs := s.errs + 1 }
  | .item m =>
    match optKey m.name with
    | none => { s with errs := s.errs + 1 }
    | some (.text o) =>
      { s with
        texts := fun p => if p = o then (s.texts o).put (readText x o m) else s.texts p
        errs := s.errs + (s.texts o).errs (readText x o m) }
    | some (.flag o) =>
      { s with
        flags := fun p => if p = o then (s.flags o).put (readFlag m) else s.flags p
        errs := s.errs + (s.flags o).errs (readFlag m) }
    | some .convert =>
      -- `String`, not an `Option`, but read in the same way
      match readText x .bounds m with
      | some t => { s with convert := s.convert ++ [t] }
      | none => { s with errs := s.errs + 1 }

/-- macro/src/lib.rs:177-196 `TestFuzzOpts`. -/
structure RawOpts where
  text : TextOpt → Option Str
  flag : FlagOpt → Bool
  convert : List Str

/-- `TestFuzzOpts::default()`. -/
def RawOpts.default : RawOpts := ⟨fun _ => none, fun _ => false, []⟩

/-- `TestFuzzOpts::from_list`, macro/src/lib.rs:202, 1019. -/
def optsFromList (x : OptSyntax) (items : List NestedM) : Option RawOpts :=
  let s := items.foldl (OptState.step x) {}
  if s.errs = 0 then some ⟨fun o => (s.texts o).val, fun o => (s.flags o).val.getD false, s.convert⟩ else none

/-- `TestFuzzImplOpts::from_list`, macro/src/lib.rs:53-54: no name is known. -/
def implOptsFromList (items : List NestedM) : Option Unit :=
  let errs := items.foldl (fun n _ => n + 1) 0
  if errs = 0 then some () else none

/-- macro/src/lib.rs:269-282: the conversions. -/
def readConverts (x : OptSyntax) : List Str → Out (List (Ty × Ty))
  | [] => .ok []
  | s :: l => do
    match x.types s with
    | some [k, v] =>
      let r ← readConverts x l
      .ok ((k, v) :: r)
    | _ => .panic

/-- macro/src/lib.rs:1031-1038 `parse_generic_arguments`, if there are any. -/
def readGenericArgs (x : OptSyntax) : Option Str → Out (Option (List GArg))
  | none => .ok none
  | some s =>
    match x.args s with
    | some l => .ok (some l)
    | none => .panic

/-- The texts of the options as `map_method_or_fn` reads them: macro/src/lib.rs:269-289, 340-350, 602-604. -/
def RawOpts.resolve (x : OptSyntax) (r : RawOpts) : Out AttrOpts := do
  let cv ← readConverts x r.convert
  let ia ← readGenericArgs x (r.text .implGenericArgs)
  let ga ← readGenericArgs x (r.text .genericArgs)
  assert ((r.text .bounds).all x.predicates)
  assert ((r.text .executeWith).all x.expr)
  .ok { convert := cv, enableInProduction := r.flag .enableInProduction, genericArgs := ga, implGenericArgs := ia,
        noAutoGenerate := r.flag .noAutoGenerate, onlyGenericArgs := r.flag .onlyGenericArgs, rename := r.text .rename }

/-- What follows the path of an attribute. -/
inductive AttrToks where
  /-- `#[test_fuzz]` -/
  | nothing
  /-- `#[test_fuzz = ..]` -/
  | value
  /-- `#[test_fuzz(..)]`; none: not a list of items -/
  | list (items : Option (List NestedM))

/-- macro/src/lib.rs:1013-1022 `opts_from_attr`, and what `map_method_or_fn` makes of the texts. -/
def attrOptsOf (x : OptSyntax) : AttrToks → Out AttrOpts
  | .list none => .panic
  | .list (some items) =>
    match optsFromList x items with
    | none => .panic
    | some r => r.resolve x
  | _ => RawOpts.default.resolve x

end TF
