import Verif.Rust.Basic

/-!
# Types as the macro sees them

The part of `syn::Type` that macro/src/type_utils.rs and macro/src/lib.rs look at. Types with no special
role in the macro (tuples, arrays, pointers, function types, trait objects, `impl` types, parenthesised types) are
lists of *pieces*: tokens, bracketed groups, and the types and paths in between. Generic arguments are lists of pieces,
too (types, lifetimes, constants, bindings `A = T`, with the commas). Attributes of types are not modelled.

A token tree is represented by its text, as that is all the code compares.
-/

namespace TF

mutual

/-- `syn::Type`. -/
inductive Ty where
  /-- `Type::Path`; `lead`: begins with `::`. -/
  | path (q : QSelf) (lead : Bool) (segs : Segs)
  /-- `Type::Reference`. -/
  | ref (lt : Option Str) (mutable : Bool) (t : Ty)
  /-- `Type::Slice`. -/
  | slice (t : Ty)
  /-- Any other type. -/
  | other (ps : Pieces)

/-- `Option<QSelf>`: in `<T as a::B>::C` the type is `T` and `pos` is 2. -/
inductive QSelf where
  | none
  | some (t : Ty) (pos : Nat)

/-- The segments of a path. -/
inductive Segs where
  | nil
  | cons (ident : Str) (args : Args) (r : Segs)

/-- `PathArguments`. -/
inductive Args where
  | none
  /-- `<..>`, after `::` if `colon2`. -/
  | angle (colon2 : Bool) (ps : Pieces)
  /-- `(A, B) -> C`, all of it in `ps`. -/
  | paren (ps : Pieces)

/-- Tokens, with types and paths in between. -/
inductive Pieces where
  | nil
  | tok (s : Str) (r : Pieces)
  | group (opening closing : Str) (ps : Pieces) (r : Pieces)
  | ty (t : Ty) (r : Pieces)
  /-- A path that is not a type: a trait bound, or a constant. -/
  | path (lead : Bool) (segs : Segs) (r : Pieces)

end

deriving instance DecidableEq for Ty, QSelf, Segs, Args, Pieces

/-- `syn::Path`. -/
structure PathTy where
  lead : Bool
  segs : Segs
  deriving DecidableEq

/-- The only segment of a path, if there is just one. -/
def Segs.single : Segs → Option (Str × Args)
  | .cons i a .nil => some (i, a)
  | _ => none

def Segs.length : Segs → Nat
  | .nil => 0
  | .cons _ _ r => r.length + 1

def Segs.append : Segs → Segs → Segs
  | .nil, s => s
  | .cons i a r, s => .cons i a (r.append s)

/-- First and last identifier. -/
def Segs.firstIdent : Segs → Option Str
  | .nil => none
  | .cons i _ _ => some i

def Segs.lastIdent : Segs → Option Str
  | .nil => none
  | .cons i _ .nil => some i
  | .cons _ _ r => r.lastIdent

/-- A path of one identifier. -/
def Ty.name (s : Str) : Ty := .path .none false (.cons s .none .nil)

/-! ## Tokens -/

def colon2 : List Str := [c%":", c%":"]

/-- Text of a bracketed group: one token tree. -/
def groupText (opening closing : Str) (ts : List Str) : Str := opening ++ ts.flatMap (' ' :: ·) ++ closing

/-- Tokens of a lifetime. -/
def lifetimeToks : Option Str → List Str
  | none => []
  | some l => [c%"'", l]

/-- Tokens of segments, with `::` in between. -/
def joinToks : List (List Str) → List Str
  | [] => []
  | s :: r => s ++ r.flatMap (colon2 ++ ·)

/-- Tokens of a path: `lead? a::b::c`, or `<t>::a::b`, or `<t as lead? a::b>::c`. -/
def pathToks (q : Option (List Str × Nat)) (lead : Bool) (segs : List (List Str)) : List Str :=
  match q with
  | none => (if lead then colon2 else []) ++ joinToks segs
  | some (t, 0) => [c%"<"] ++ t ++ [c%">"] ++ segs.flatMap (colon2 ++ ·)
  | some (t, n) =>
    [c%"<"] ++ t ++ [c%"as"] ++ (if lead then colon2 else []) ++ joinToks (segs.take n) ++ [c%">"] ++
      (segs.drop n).flatMap (colon2 ++ ·)

mutual

/-- `to_token_stream().into_iter()` of a type. -/
def Ty.toks : Ty → List Str
  | .path q lead segs => pathToks q.toks lead segs.toks
  | .ref lt m t => [c%"&"] ++ lifetimeToks lt ++ (if m then [c%"mut"] else []) ++ t.toks
  | .slice t => [groupText c%"[" c%"]" t.toks]
  | .other ps => ps.toks

def QSelf.toks : QSelf → Option (List Str × Nat)
  | .none => none
  | .some t pos => some (t.toks, pos)

/-- The tokens of each segment. -/
def Segs.toks : Segs → List (List Str)
  | .nil => []
  | .cons i a r => (i :: a.toks) :: r.toks

def Args.toks : Args → List Str
  | .none => []
  | .angle c ps => (if c then colon2 else []) ++ [c%"<"] ++ ps.toks ++ [c%">"]
  | .paren ps => ps.toks

def Pieces.toks : Pieces → List Str
  | .nil => []
  | .tok s r => s :: r.toks
  | .group o c ps r => groupText o c ps.toks :: r.toks
  | .ty t r => t.toks ++ r.toks
  | .path lead segs r => pathToks none lead segs.toks ++ r.toks

end

end TF
