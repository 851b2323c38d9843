import Verif.Model.Traits

/-!
# Which bounds the generated code needs: macro/src/lib.rs:322-345, 446-453, 487-512, 661-740, 1095-1104

What the compiler has to know about types in order to accept the generated code: that `Args` may be declared with its fields,
that the traits derived for it are implemented, and that the functions may be called. Targets have no options but `bounds`,
`generic_args` and `impl_generic_args`, their arguments have no attributes and are recorded by `clone`; the types of fields are
given. Lifetimes and constants are not modelled.
-/

namespace TF

def tClone : Str := c%"core::clone::Clone"
def tSerialize : Str := c%"serde::Serialize"
def tDeserialize : Str := c%"serde::Deserialize"
def tDeserializeOwned : Str := c%"serde::de::DeserializeOwned"

/-- The where clause of the definition of a type, or what its path needs: `T::A` needs the trait that `A` is of. -/
def DefsOk (w : Traits) (Γ : List Bound) (t : STy) : Prop :=
  ∀ d ∈ w.defs, ∀ σ, t = d.1.subst σ → ∀ b ∈ d.2, Holds w Γ (b.1.subst σ) b.2

/-- A type may be written down. -/
def TyOk (w : Traits) (Γ : List Bound) : STy → Prop
  | .param n => DefsOk w Γ (.param n)
  | .con n => DefsOk w Γ (.con n)
  | .app f a => DefsOk w Γ (.app f a) ∧ TyOk w Γ f ∧ TyOk w Γ a
  | .assoc t n => DefsOk w Γ (.assoc t n) ∧ TyOk w Γ t

/-! ## `serde_derive` -/

/-- The parameter that a path begins with. -/
def rootParam : STy → Option Str
  | .param n => some n
  | .assoc t _ => rootParam t
  | _ => none

/-- `serde_derive`, bound.rs `with_bound`: whether a parameter is written in the type of a field, other than as the beginning of a
longer path or in a `PhantomData`. -/
def relevantTo (n : Str) : STy → Bool
  | .param m => m == n
  | .con _ => false
  | .app f a => if f = .con phantomName then false else relevantTo n f || relevantTo n a
  | .assoc t _ => if (rootParam t).isSome then false else relevantTo n t

/-- Whether the type of a field is a path that begins with a parameter and goes on. -/
def assocUse (params : List Str) : STy → Bool
  | .assoc t _ =>
    match rootParam t with
    | some n => params.contains n
    | none => false
  | _ => false

/-- `serde_derive`, bound.rs `with_bound`: the bounds of the derived impl, in addition to those of the struct. -/
def derivedBounds (params : List Str) (tr : Str) (fields : List STy) : List Bound :=
  (params.filter fun n => fields.any (relevantTo n)).map (fun n => (.param n, tr)) ++
    (fields.filter (assocUse params)).map fun t => (t, tr)

/-! ## The generated items -/

/-- A target, with what the macro takes from it and its options. `fields`: the types of the fields of `Args`, phantoms excepted.
`args`: `impl_generic_args` and `generic_args`. -/
structure GenTarget where
  impl_ : BGenerics
  fn_ : BGenerics
  bounds : List Bound
  fields : List STy
  ret : STy
  args : Str → STy

/-- The parameters of types. -/
def GenTarget.params (g : GenTarget) : List Str := typeIdents ((g.impl_.combine g.fn_).params.map (·.1))

/-- The bounds of the target, `#impl_generics` and `#where_clause`. -/
def GenTarget.known (g : GenTarget) : List Bound := (g.impl_.combine g.fn_).bounds

/-- `#impl_generics_deserializable`; macro/src/lib.rs:1095-1104. -/
def GenTarget.knownDe (g : GenTarget) : List Bound := g.known ++ g.params.map fun n => (.param n, tDeserializeOwned)

/-- macro/src/lib.rs:1106-1124: the types of all fields. -/
def GenTarget.allFields (g : GenTarget) : List STy := g.fields ++ g.params.map fun n => phantomOf (.param n)

/-- The compiler accepts the generated code. -/
structure Compiles (w : Traits) (g : GenTarget) : Prop where
  /-- The structs `Args`, whose bounds are those of the option `bounds`: macro/src/lib.rs:487, 666, 680. -/
  structs : ∀ f ∈ g.allFields, TyOk w g.bounds f
  /-- `Args` is used with these bounds in the function (501-508), by `write_args` (664) and in impls (690, 705, 723). -/
  used : ∀ b ∈ g.bounds, Holds w g.known b.1 b.2
  /-- `x.clone()` in the function (508, `ser_args`), and in `Args::auto_generate` (728, 1153). -/
  cloned : ∀ f ∈ g.allFields, Holds w g.known f tClone
  /-- `#[derive(serde::Serialize)] struct Args`: 665-668. -/
  deriveSer : ∀ f ∈ g.allFields, Holds w (g.bounds ++ derivedBounds g.params tSerialize g.allFields) f tSerialize
  /-- `test_fuzz::runtime::write_args(&args)`: 672. -/
  writeArgs : ∀ b ∈ g.bounds ++ derivedBounds g.params tSerialize g.allFields, Holds w g.known b.1 b.2
  /-- `#[derive(serde::Deserialize)] struct Args`: 679-682. -/
  deriveDe : ∀ f ∈ g.allFields, Holds w (g.bounds ++ derivedBounds g.params tDeserialize g.allFields) f tDeserialize
  /-- `test_fuzz::runtime::read_args::<Args, _>(reader)`: 683. -/
  readArgs : ∀ b ∈ g.bounds ++ derivedBounds g.params tDeserialize g.allFields, Holds w g.knownDe b.1 b.2
  /-- `type RetTy = #ret_ty`: 705-707. -/
  result : TyOk w g.known g.ret
  /-- `Args #combined_generic_args :: entry()` and `read_args #combined_generic_args`: 545, 554, 773. -/
  entry : ∀ b ∈ g.knownDe, Holds w [] (b.1.subst g.args) b.2

end TF
