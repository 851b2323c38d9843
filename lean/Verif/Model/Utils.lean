import Verif.Model.Args
import Verif.Model.Postcard

/-!
# test-fuzz/src/utils.rs: `dont_care!` and `leak!`
-/

namespace TF

/-! ## `dont_care!` (test-fuzz/src/utils.rs:7-30) -/

/-- `serialize`: like `()`. -/
def dontCareSer {A : Type} (_ : A) : SVal := .unit

/-- What `<()>::deserialize` asks for. -/
def dontCareSch : Sch := .unit

/-- `deserialize`: `<()>::deserialize(..).map(|_| $expr)` -/
def dontCareDe {A : Type} (expr : A) (v : SVal) : Option A :=
  match v with
  | .unit => some expr
  | _ => none

/-- A struct: fields of types that are taken care of, given in serde's data model, and fields of types that are not. -/
inductive FieldV (A : Type) where
  | plain (v : SVal)
  | dontCare (a : A)

/-- Its type; `expr` for the types that are not taken care of. -/
inductive FieldT (A : Type) where
  | plain (s : Sch)
  | dontCare (expr : A)

section
variable {A : Type}

/-- Derived `Serialize`. -/
def serFields : List (FieldV A) → SVals
  | [] => .nil
  | .plain v :: l => .cons v (serFields l)
  | .dontCare a :: l => .cons (dontCareSer a) (serFields l)

def schFields : List (FieldT A) → Schs
  | [] => .nil
  | .plain s :: l => .cons s (schFields l)
  | .dontCare _ :: l => .cons dontCareSch (schFields l)

/-- Derived `Deserialize`. -/
def deFields : List (FieldT A) → SVals → Option (List (FieldV A))
  | [], .nil => some []
  | .plain _ :: l, .cons v vs => do
    let r ← deFields l vs
    some (.plain v :: r)
  | .dontCare expr :: l, .cons v vs => do
    let a ← dontCareDe expr v
    let r ← deFields l vs
    some (.dontCare a :: r)
  | _, _ => none

/-- Reading the struct with the default format. -/
def readFields (p : Policy) (ts : List (FieldT A)) (b : Bytes) : Option (List (FieldV A)) :=
  match postDeserialize p (.tuple (schFields ts)) b with
  | some (.tuple vs) => deFields ts vs
  | _ => none

/-! ## `leak!` (test-fuzz/src/utils.rs:35-52)

`leak!(ty, ident)` defines `struct ident(<ty as ToOwned>::Owned)`. A newtype struct is taken for its content. -/

/-- `ToOwned::to_owned` of what a reference refers to: `str` and slices are the unsized types. -/
def toOwned (S : Sem A) : Val A → A
  | .str s => S.string s
  | .slice l => S.vec (l.map S.clone)
  | .base a => S.clone a
  -- a reference is cloned (`ToOwned` for `T: Clone`); the result is not in `A`
  | .ref .. => S.phantom

/-- `&mut Owned`, coerced to `&ty`. -/
def derefTo (S : Sem A) (ty : Ty) (a : A) : Val A :=
  match ty with
  | .slice _ => .slice (S.asSlice a)
  | .path q lead segs => if matchTypePath q segs c%"str" = some .none then .str (S.asStr a) else .base a
  | _ => .base a

/-- The implementations of `From` (with test-fuzz/src/convert.rs:1-13) and `test_fuzz::Into`, in addition to others. -/
def Sem.withLeak (S : Sem A) (ty : Ty) (ident : Str) : Sem A where
  clone := S.clone
  string := S.string
  asStr := S.asStr
  vec := S.vec
  asSlice := S.asSlice
  phantom := S.phantom
  fromRef dst src v :=
    match src, v with
    | .ref _ false t, .ref false u => if dst = .name ident ∧ t = ty then toOwned S u else S.fromRef dst src v
    | _, _ => S.fromRef dst src v
  into src dst v :=
    match dst, v with
    | .ref _ false t, .base a => if src = .name ident ∧ t = ty then .ref false (derefTo S ty a) else S.into src dst v
    | _, _ => S.into src dst v

end

end TF
