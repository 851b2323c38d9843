import Verif.Model.Args

/-!
# Specification vocabulary for generated argument structs

The terms of the model's language of types and values are used here, not the model of the macro.
-/

namespace TF.Spec

/-- `str` -/
def IsStr (t : Ty) : Prop := ∃ lead, t = .path .none lead (.cons c%"str" .none .nil)

/-- Neither a reference nor `str` nor a slice. -/
def Opaque : Ty → Prop
  | .path q lead segs => ¬ IsStr (.path q lead segs)
  | .other _ => True
  | _ => False

/-- A type an argument can have: not `str` or a slice by itself. -/
def Passable : Ty → Prop
  | .path q lead segs => ¬ IsStr (.path q lead segs)
  | .slice _ => False
  | _ => True

section
variable {A : Type}

/-- `v` is a value of type `t`; `has` says so for opaque types and for elements of slices. -/
inductive HasTy (has : Ty → A → Prop) : Val A → Ty → Prop
  | base {a : A} {t : Ty} : Opaque t → has t a → HasTy has (.base a) t
  | str (s : Str) (lead : Bool) : HasTy has (.str s) (.path .none lead (.cons c%"str" .none .nil))
  | slice {l : List A} {t : Ty} : (∀ x ∈ l, has t x) → HasTy has (.slice l) (.slice t)
  | ref {v : Val A} {t : Ty} (lt : Option Str) (m : Bool) : HasTy has v t → HasTy has (.ref m v) (.ref lt m t)

/-- What is asked of library and user functions: clones are equal to the original, `String` and `Vec` keep what is put
into them. -/
structure Lawful (S : Sem A) (has : Ty → A → Prop) : Prop where
  clone_eq : ∀ a, S.clone a = a
  asStr_string : ∀ s, S.asStr (S.string s) = s
  asSlice_vec : ∀ l, S.asSlice (S.vec l) = l
  string_has : ∀ s, has (.name c%"String") (S.string s)
  vec_has : ∀ l t, (∀ x ∈ l, has t x) →
    has (.path .none false (.cons c%"Vec" (.angle false (.ty t .nil)) .nil)) (S.vec l)
  phantom_has : ∀ ps,
    has (.path .none false (.cons c%"std" .none (.cons c%"marker" .none (.cons c%"PhantomData" (.angle false ps) .nil))))
      S.phantom

/-- `u`, of type `s`, is what is left of `v`, of type `t`, after following some references. -/
inductive Behind : Val A → Ty → Val A → Ty → Prop
  | here (v : Val A) (t : Ty) : Behind v t v t
  | ref {v u : Val A} {t s : Ty} (lt : Option Str) (m : Bool) : Behind v t u s → Behind (.ref m v) (.ref lt m t) u s

/-- The conversions are inverse to each other on what is behind `v`. -/
def Inverse (S : Sem A) (has : Ty → A → Prop) (convert : List (Ty × Ty)) (v : Val A) (t : Ty) : Prop :=
  ∀ u s a, Behind v t u s → (∃ p ∈ convert, p.1.toks = s.toks ∧ p.2 = a) →
    HasTy has (.base (S.fromRef a s u)) a ∧ S.into a s (.base (S.fromRef a s u)) = u

/-- Values that can be cloned as they are. -/
def Clonable : Val A → Prop
  | .base _ => True
  | .ref m _ => m = false
  | _ => False

end

/-- There is a conversion for the type. -/
def Converted (convert : List (Ty × Ty)) (t : Ty) : Prop := ∃ p ∈ convert, p.1.toks = t.toks

/-- Conversions for `u` are applied to arguments of type `t`: if `u` is `t`, or `t` is a reference – without a conversion
of its own – to a type that is not a path or a slice, and the same holds of that type. -/
inductive Considered (convert : List (Ty × Ty)) : Ty → Ty → Prop
  | here (t : Ty) : Considered convert t t
  | ref {t u : Ty} (lt : Option Str) (m : Bool) : ¬ Converted convert (.ref lt m t) → (∀ q lead segs, t ≠ .path q lead segs) →
      (∀ s, t ≠ .slice s) → Considered convert t u → Considered convert (.ref lt m t) u

/-- The type of an argument, seen from outside of the impl. -/
inductive ArgTy : ImplM → FnArg → Ty → Prop
  | recvRef (x : SelfCtx) (at' : List Str) (lt : Option Str) (m : Bool) :
      ArgTy (some x) (.receiver at' false (.reference lt m)) (.ref lt m x.self)
  | recvVal (x : SelfCtx) (at' : List Str) (k : Recv) : (∀ lt m, k ≠ .reference lt m) →
      ArgTy (some x) (.receiver at' false k) x.self
  | free (at' : List Str) (pat : PatInfo) (t : Ty) : pat.idents.length ≤ 1 → ArgTy none (.typed at' pat t) t
  | method (x : SelfCtx) (at' : List Str) (pat : PatInfo) (t t' : Ty) : pat.idents.length ≤ 1 → t.expandSelf x = .ok t' →
      ArgTy (some x) (.typed at' pat t) t'

/-- The codec gives back these values, whatever follows the encoding. -/
def RoundTrip {A : Type} (cd : Codec A) (sch : List (List Str × Ty)) (vs : List (Val A)) : Prop :=
  ∀ b, cd.enc sch vs = .ok b → ∀ r, cd.dec sch (b ++ r) = some vs

/-- A call that type-checks and that can be recorded: for each parameter its type and the value passed. Parameters are bound
to variables; conversions are inverse to each other; parameters with serde attributes can be cloned. -/
inductive TypedCall {A : Type} (S : Sem A) (has : Ty → A → Prop) (im : ImplM) (convert : List (Ty × Ty)) :
    List FnArg → List Ty → List (Val A) → Prop
  | nil : TypedCall S has im convert [] [] []
  | cons {a : FnArg} {t : Ty} {v : Val A} {l : List FnArg} {ts : List Ty} {vs : List (Val A)} :
      ArgTy im a t → HasTy has v t → Passable t → (a.attrs = [] → Inverse S has convert v t) →
      (a.attrs ≠ [] → Clonable v) → a.binder ≠ none → TypedCall S has im convert l ts vs →
      TypedCall S has im convert (a :: l) (t :: ts) (v :: vs)

/-- `_0`, `_1`, ... -/
def IsNumbered (s : Str) : Prop := ∃ n : Nat, s = '_' :: natStr n

/-- The variables that the instrumentation declares: arguments of these names are hidden where they are to be recorded. -/
def hidingNames : List Str := [c%"impl_generic_args", c%"generic_args"]

end TF.Spec
