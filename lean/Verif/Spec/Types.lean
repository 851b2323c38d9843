import Verif.Model.Syntax

/-!
# Meaning of types

An interpretation assigns meanings, of any kind, to the ways of building types; an environment assigns meanings to the
type variables in scope (`Self`, and type parameters). Only the syntax of types is used here.
-/

namespace TF.Spec

/-- Meaning of everything but type variables; segments are given with the meaning of their arguments. -/
structure Interp (D : Type) where
  path : Bool → List (Str × D) → D
  /-- `<t as trait>::rest` -/
  qual : D → Bool → List (Str × D) → List (Str × D) → D
  ref : Option Str → Bool → D → D
  slice : D → D
  other : D → D
  noArgs : D
  angle : Bool → D → D
  paren : D → D
  nil : D
  tok : Str → D → D
  group : Str → Str → D → D → D
  ty : D → D → D
  bound : Bool → List (Str × D) → D → D

/-- Meaning of type variables: by themselves, at the beginning of a longer path, and at the beginning of a path that
is not a type. -/
structure TyEnv (D : Type) where
  var : Str → Option D
  proj : Str → D → List (Str × D) → D
  const : Str → D → List (Str × D) → D → D

/-- The variable a path begins with. -/
def headVar (isVar : Str → Bool) (lead : Bool) : Segs → Option Str
  | .nil => none
  | .cons i _ _ => if lead = false ∧ isVar i = true then some i else none

section
variable {D : Type} (I : Interp D) (ρ : TyEnv D)

/-- Meaning of a path from that of its parts. -/
def pathDen (lead : Bool) (segs : List (Str × D)) : D :=
  match segs with
  | [] => I.path lead []
  | (i, a) :: r =>
    match (if lead then none else ρ.var i), r with
    | none, _ => I.path lead ((i, a) :: r)
    | some d, [] => d
    | some _, r => ρ.proj i a r

/-- Meaning of a path that is not a type. -/
def boundDen (lead : Bool) (segs : List (Str × D)) (rest : D) : D :=
  match segs with
  | [] => I.bound lead [] rest
  | (i, a) :: r =>
    match (if lead then none else ρ.var i) with
    | none => I.bound lead ((i, a) :: r) rest
    | some _ => ρ.const i a r rest

mutual

def tyDen : Ty → D
  | .path .none lead segs => pathDen I ρ lead (segsDen segs)
  | .path (.some t n) lead segs => I.qual (tyDen t) lead ((segsDen segs).take n) ((segsDen segs).drop n)
  | .ref lt m t => I.ref lt m (tyDen t)
  | .slice t => I.slice (tyDen t)
  | .other ps => I.other (piecesDen ps)

def segsDen : Segs → List (Str × D)
  | .nil => []
  | .cons i a r => (i, argsDen a) :: segsDen r

def argsDen : Args → D
  | .none => I.noArgs
  | .angle c ps => I.angle c (piecesDen ps)
  | .paren ps => I.paren (piecesDen ps)

def piecesDen : Pieces → D
  | .nil => I.nil
  | .tok s r => I.tok s (piecesDen r)
  | .group o c ps r => I.group o c (piecesDen ps) (piecesDen r)
  | .ty t r => I.ty (tyDen t) (piecesDen r)
  | .path lead segs r => boundDen I ρ lead (segsDen segs) (piecesDen r)

end

end

/-! ## Occurrences of variables

A statement about all paths of a type: `P` is asked of the paths that are types, `B` of those that are not. -/

section
variable (P : Bool → Segs → Prop) (B : Bool → Segs → Prop)

mutual

def Ty.All : Ty → Prop
  | .path .none lead segs => P lead segs ∧ Segs.All segs
  | .path (.some t _) _ segs => Ty.All t ∧ Segs.All segs
  | .ref _ _ t => Ty.All t
  | .slice t => Ty.All t
  | .other ps => Pieces.All ps

def Segs.All : Segs → Prop
  | .nil => True
  | .cons _ a r => Args.All a ∧ Segs.All r

def Args.All : Args → Prop
  | .none => True
  | .angle _ ps => Pieces.All ps
  | .paren ps => Pieces.All ps

def Pieces.All : Pieces → Prop
  | .nil => True
  | .tok _ r => Pieces.All r
  | .group _ _ ps r => Pieces.All ps ∧ Pieces.All r
  | .ty t r => Ty.All t ∧ Pieces.All r
  | .path lead segs r => B lead segs ∧ Segs.All segs ∧ Pieces.All r

end

end

/-- The path does not begin with one of the variables. -/
def Free (isVar : Str → Bool) (lead : Bool) (segs : Segs) : Prop := headVar isVar lead segs = none

/-- None of the variables occurs. -/
def Without (isVar : Str → Bool) (t : Ty) : Prop := Ty.All (Free isVar) (Free isVar) t

def SegsWithout (isVar : Str → Bool) (s : Segs) : Prop := Segs.All (Free isVar) (Free isVar) s

end TF.Spec
