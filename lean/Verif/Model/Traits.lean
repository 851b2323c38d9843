import Verif.Model.Auto
import Verif.Model.DebugText
import Verif.Model.Generics

/-!
# Which traits a type is known to implement: runtime/src/lib.rs:22-118, runtime/src/traits.rs

`TryDebug` and `auto_impl!` call a function that exists twice: as an inherent one, for types with a certain trait, and as one
of a fallback trait, for all types. The compiler takes the inherent one if the type is known to have the trait, where the call
is written. In the module of a generic target this is inside of `impl #impl_generics .. for Args #ty_generics #where_clause`, so
that what is known about parameters are their bounds.

Impls are modelled as Horn clauses, and what is known as what can be derived from them and from the bounds. Lifetimes, constants,
higher-ranked bounds and coinductive traits are not modelled; a trait with its arguments is a name; `T::A` is not normalised, but
can be the pattern of an impl.
-/

namespace TF

/-- A type: `Vec<T>` is `Vec` applied to `T`; tuples, references, slices are applied constructors, too. -/
inductive STy where
  | param (n : Str)
  | con (n : Str)
  | app (f a : STy)
  /-- `t::n` -/
  | assoc (t : STy) (n : Str)
  deriving DecidableEq

/-- Types in place of parameters. -/
def STy.subst (θ : Str → STy) : STy → STy
  | .param n => θ n
  | .con n => .con n
  | .app f a => .app (f.subst θ) (a.subst θ)
  | .assoc t n => .assoc (t.subst θ) n

/-- That a type has a trait. -/
abbrev Bound := STy × Str

/-- `impl<..> trait for pat where conds`. -/
structure ImplRule where
  pat : STy
  trait : Str
  conds : List Bound

/-- The impls, supertraits and the where clauses of type definitions of all crates. -/
structure Traits where
  impls : List ImplRule
  supers : Str → List Str
  defs : List (STy × List Bound)

/-- What bounds say, with supertraits. -/
inductive Assumed (w : Traits) (Γ : List Bound) : STy → Str → Prop where
  | here {t tr} : (t, tr) ∈ Γ → Assumed w Γ t tr
  | super {t tr tr'} : Assumed w Γ t tr → tr' ∈ w.supers tr → Assumed w Γ t tr'

/-- The compiler can tell that a type has a trait, given bounds `Γ`. -/
inductive Holds (w : Traits) (Γ : List Bound) : STy → Str → Prop where
  | assumed {t tr} : Assumed w Γ t tr → Holds w Γ t tr
  | impl (r : ImplRule) (σ : Str → STy) : r ∈ w.impls → (∀ c ∈ r.conds, Holds w Γ (c.1.subst σ) c.2) →
      Holds w Γ (r.pat.subst σ) r.trait

/-! ## The traits in question -/

def tDebug : Str := c%"core::fmt::Debug"
def tDefault : Str := c%"core::default::Default"
def tBounded : Str := c%"num_traits::Bounded"
def tOne : Str := c%"num_traits::One"
def tAdd : Str := c%"core::ops::Add<Output = Self>"
def tSub : Str := c%"core::ops::Sub<Output = Self>"
def tDiv : Str := c%"core::ops::Div<Output = Self>"
def tMinValueAddOne : Str := c%"test_fuzz_runtime::traits::MinValueAddOne"
def tMaxValueSubOne : Str := c%"test_fuzz_runtime::traits::MaxValueSubOne"
def tTwo : Str := c%"test_fuzz_runtime::traits::Two"
def tMiddle : Str := c%"test_fuzz_runtime::traits::Middle"

def phantomName : Str := c%"core::marker::PhantomData"

/-- `std::marker::PhantomData<t>`: macro/src/lib.rs:1113. -/
def phantomOf (t : STy) : STy := .app (.con phantomName) t

/-- `impl<T> trait for T where T: conds`. -/
def blanket (tr : Str) (conds : List Str) : ImplRule :=
  ⟨.param c%"T", tr, conds.map fun c => (.param c%"T", c)⟩

/-- The impls of runtime/src/traits.rs: 8-15, 21-28, 34-41, 48-58. -/
def runtimeImpls : List ImplRule :=
  [blanket tMinValueAddOne [tAdd, tBounded, tOne], blanket tMaxValueSubOne [tSub, tBounded, tOne],
    blanket tTwo [tAdd, tOne], blanket tMiddle [tAdd, tDiv, tBounded, tOne, tTwo]]

/-! ## The two uses -/

open Classical in
/-- runtime/src/lib.rs:44-61: `TryDebug(&x).apply(..)`, where `x : t`. `d`: what the `Debug` of `x` writes, if there is one.
`name`: the name of the type. -/
noncomputable def tryDebug (w : Traits) (Γ : List Bound) (t : STy) (name : Str) (d : Dbg) : Shown :=
  if Holds w Γ t tDebug then .debug d else .unknown name

open Classical in
/-- runtime/src/lib.rs:67-92 `auto_impl!`, for the type `t`. -/
noncomputable def autoImplIn {α : Type} (w : Traits) (Γ : List Bound) (t : STy) (tr : Str) (x : Option (Out (List α))) :
    Out (List α) :=
  if Holds w Γ t tr then autoImpl x else .ok []

/-- runtime/src/lib.rs:94-118 `auto!`, for the type `t`. `c`: what the type offers that `t` stands for. -/
noncomputable def autoIn {α : Type} (w : Traits) (Γ : List Bound) (t : STy) (c : Caps α) : Out (List α) := do
  let a ← autoImplIn w Γ t tBounded (c.bounded.map fun b => .ok [b.1, b.2])
  let b ← autoImplIn w Γ t tDefault (c.default_.map fun d => .ok [d])
  let c1 ← autoImplIn w Γ t tMaxValueSubOne ((maxValueSubOne c).map fun x => do let x ← x; .ok [x])
  let d ← autoImplIn w Γ t tMiddle (middle c)
  let e ← autoImplIn w Γ t tMinValueAddOne ((minValueAddOne c).map fun x => do let x ← x; .ok [x])
  .ok (a ++ b ++ c1 ++ d ++ e)

/-! ## Bounds of the generated items -/

/-- Parameters with their bounds, and the predicates of the where clause. -/
structure BGenerics where
  params : List (GParam × List Str)
  preds : List Bound

/-- The bounds that generics state. -/
def paramBounds : List (GParam × List Str) → List Bound
  | [] => []
  | (.ty i, bs) :: l => bs.map (fun b => (.param i, b)) ++ paramBounds l
  | _ :: l => paramBounds l

def BGenerics.bounds (g : BGenerics) : List Bound := paramBounds g.params ++ g.preds

/-- macro/src/lib.rs:1064-1075 `combine_generics`. -/
def BGenerics.combine (l r : BGenerics) : BGenerics := ⟨l.params ++ r.params, l.preds ++ r.preds⟩

/-- macro/src/lib.rs:690-697: the fields that `Debug` for `Args` shows, as `argsDebug` takes them. Fields are given by names,
types, and for the value at hand the name of the type and what its `Debug` writes. -/
noncomputable def argsShown (w : Traits) (impl_ fn_ : BGenerics) (fields : List (Str × STy × Str × Dbg)) :
    List (Str × Shown) :=
  fields.map fun f => (f.1, tryDebug w (impl_.combine fn_).bounds f.2.1 f.2.2.1 f.2.2.2)

/-- macro/src/lib.rs:637-648: `Ret` is declared for the result with the user's arguments `θ` in place of parameters, and its
`Debug` is not generic. -/
noncomputable def retShown (w : Traits) (θ : Str → STy) (ret : STy) (name : Str) (d : Dbg) : Shown :=
  tryDebug w [] (ret.subst θ) name d

/-- `autos`, one after the other; macro/src/lib.rs:446-453, 728. -/
noncomputable def autosIn {α : Type} (w : Traits) (Γ : List Bound) : List (STy × Caps α) → Out (List (List α))
  | [] => .ok []
  | (t, c) :: l => do
    let x ← autoIn w Γ t c
    let xs ← autosIn w Γ l
    .ok (x :: xs)

/-- macro/src/lib.rs:726-733: what `Args::auto_generate` writes, with the types of the fields of `Args` (phantoms included). -/
noncomputable def autoGeneratedIn {α : Type} (w : Traits) (impl_ fn_ : BGenerics) (fields : List (STy × Caps α)) :
    Out (List (List α)) := do
  let autos ← autosIn w (impl_.combine fn_).bounds fields
  argsFromAutos autos

end TF
