import Verif.Model.Expand

/-!
# Generic parameters and arguments in the generated code: macro/src/lib.rs:322-396, 446-497, 549-580, 658-740, 1050-1104

Every item with parameters that the generated code declares, and every place where it is applied to arguments. `syn` prints
lifetimes before other parameters and arguments, whatever their order (`ToTokens` of `ImplGenerics`, `TypeGenerics`,
`Turbofish` and `AngleBracketedGenericArguments`); the generated code passes through these. Bounds and where clauses are
modelled for `combine_generics` and `restrict_to_deserialize` only.
-/

namespace TF

def GParam.isLifetime : GParam → Bool
  | .lifetime _ => true
  | _ => false

/-- The order in which `syn` prints parameters. -/
def lifetimesFirst (gs : List GParam) : List GParam := gs.filter (·.isLifetime) ++ gs.filter (!·.isLifetime)

/-- A parameter as `syn::TypeGenerics` prints it, read as an argument: just its name. The name of a constant looks like that
of a type. -/
def GParam.toArg : GParam → GArg
  | .ty i => .ty (.name i)
  | .lifetime s => .lifetime s
  | .const i => .ty (.name i)

/-- The same, read as a parameter of a struct: `struct Args #ty_generics` (macro/src/lib.rs:487). -/
def GParam.toStructParam : GParam → GParam
  | .const i => .ty i
  | g => g

/-- `#ty_generics` as arguments. -/
def tyGenerics (gs : List GParam) : List GArg := (lifetimesFirst gs).map (·.toArg)

/-- Items of the generated code that have parameters. -/
inductive GItem where
  /-- `struct Args` of the module -/
  | args
  | writeArgs
  | readArgs
  /-- The structs inside of the functions `write_args` and `read_args` -/
  | innerWrite | innerRead
  deriving DecidableEq

/-- The parameters with which an item is declared; macro/src/lib.rs:474-492, 664-668, 678-682. -/
def GItem.params (o : AttrOpts) (gs : List GParam) : GItem → List GParam
  | .args => if o.onlyGenericArgs then [] else (lifetimesFirst gs).map (·.toStructParam)
  | .writeArgs | .readArgs => lifetimesFirst gs
  | .innerWrite | .innerRead => (lifetimesFirst gs).map (·.toStructParam)

/-- An item that is applied to arguments. `scope`: the parameters that can be named there. `infer`: in an expression, where
arguments can be left out. -/
structure GApp where
  item : GItem
  scope : List GParam
  args : List GArg
  infer : Bool

/-- The parameter of `impl<R: std::io::Read> UsingReader<R>`; macro/src/lib.rs:677. -/
def readerParam : GParam := .ty c%"R"

/-- The lists of parameters that are declared together: those of `Args` (macro/src/lib.rs:487), of `write_args` (664) and of the
struct in it (666), of `read_args` and of the impl around it (677-678), of the struct in `read_args` (680), and of the impls
for `Args` (690, 705, 723). -/
def paramLists (o : AttrOpts) (gs : List GParam) : List (List GParam) :=
  if o.onlyGenericArgs then [[]]
  else [GItem.args.params o gs, GItem.writeArgs.params o gs, GItem.innerWrite.params o gs,
    readerParam :: GItem.readArgs.params o gs, GItem.innerRead.params o gs, lifetimesFirst gs]

/-- Where the arguments are up to the macro. In the function: `write_impl_generic_args` and `write_generic_args`
(macro/src/lib.rs:501-502), `write_args` (508), `Args` (508). In the module: the parameter of `write_args` (664), the struct
literal in it (669), the result of `read_args` (678), the call and the closure in it (683-684), the impls for `Args` (690, 705,
723). -/
def internalApps (o : AttrOpts) (gs : List GParam) : List GApp :=
  if o.onlyGenericArgs then [⟨.args, gs, [], true⟩, ⟨.args, gs, [], true⟩]
  else [⟨.args, gs, tyGenerics gs, true⟩, ⟨.args, gs, tyGenerics gs, true⟩,
    ⟨.writeArgs, gs, (typeIdents gs).map fun i => .ty (.name i), true⟩, ⟨.args, gs, [], true⟩,
    ⟨.args, lifetimesFirst gs, tyGenerics gs, false⟩, ⟨.innerWrite, lifetimesFirst gs, [], true⟩,
    ⟨.args, readerParam :: lifetimesFirst gs, tyGenerics gs, false⟩,
    ⟨.innerRead, readerParam :: lifetimesFirst gs, tyGenerics gs, true⟩,
    ⟨.innerRead, readerParam :: lifetimesFirst gs, [], true⟩, ⟨.args, readerParam :: lifetimesFirst gs, [], true⟩,
    ⟨.args, lifetimesFirst gs, tyGenerics gs, false⟩]

/-- Where the user's arguments are used, if there is a harness: `read_args` (macro/src/lib.rs:554, 614), the type of the result
(572), `Args::auto_generate` and `Args::entry` (545, 773). `retArgs`: `combined_generic_args_with_dummy_lifetimes`. -/
def userApps (o : AttrOpts) (gs : List GParam) (retArgs : List GArg) : List GApp :=
  let as := (combineArgs o.implGenericArgs o.genericArgs).getD []
  [⟨.readArgs, lifetimesFirst gs, as, true⟩, ⟨.args, [], retArgs, false⟩, ⟨.args, [], as, true⟩]

/-! ## Bounds -/

/-- Parameters with their bounds, and the predicates of a where clause, if there is one. -/
structure GenericsM where
  params : List (GParam × List Str)
  where_ : Option (List Str)
  deriving DecidableEq

/-- macro/src/lib.rs:1064-1075 `combine_generics`. -/
def combineGenerics (l r : GenericsM) : GenericsM where
  params := l.params ++ r.params
  where_ :=
    match l.where_, r.where_ with
    | some x, some y => some (x ++ y)
    | x, none => x
    | none, y => y

/-- macro/src/lib.rs:1095-1104 `restrict_to_deserialize`. -/
def restrictToDeserialize (g : GenericsM) : GenericsM where
  params := g.params.map fun
    | (.ty i, b) => (.ty i, b ++ [c%"serde::de::DeserializeOwned"])
    | p => p
  where_ := g.where_

end TF
