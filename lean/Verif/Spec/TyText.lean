import Verif.Model.Syntax

/-!
# Types as they are written

The types whose tokens can be read in one way only. Left out are the forms that `Model/Syntax.lean` does not distinguish from
others (function types, bindings and bounds in generic arguments, and in bounds `?`, `for<..>` and parentheses).
-/

namespace TF.Spec

/-- A name or a literal: no spaces and no punctuation of types. -/
def IsWord (s : Str) : Prop := s ≠ [] ∧ ∀ c ∈ s, c ∉ c%" ()[]{}<>&*!:;,'"

/-- A name: not a literal, not one of the keywords that occur in types. -/
def IsName (s : Str) : Prop :=
  IsWord s ∧ (∀ c, s.head? = some c → c.isDigit = false) ∧ s ∉ [c%"mut", c%"const", c%"as", c%"_", c%"dyn", c%"impl"]

/-- A literal. -/
def IsLiteral (s : Str) : Prop := IsWord s ∧ ∃ c, s.head? = some c ∧ c.isDigit = true

mutual

inductive WTy : Ty → Prop
  /-- `a::b<C>` -/
  | path {lead : Bool} {segs : Segs} : WSegs segs → WTy (.path .none lead segs)
  /-- `<T>::A` -/
  | assoc {t : Ty} {segs : Segs} : WTy t → WSegs segs → WTy (.path (.some t 0) false segs)
  /-- `<T as a::B>::C` -/
  | qualified {t : Ty} {n : Nat} {lead : Bool} {segs : Segs} : WTy t → n + 1 < segs.length → WSegs segs →
      WTy (.path (.some t (n + 1)) lead segs)
  /-- `&'a mut T` -/
  | ref {lt : Option Str} {m : Bool} {t : Ty} : (∀ l, lt = some l → IsName l) → WTy t → WTy (.ref lt m t)
  /-- `[T]` -/
  | slice {t : Ty} : WTy t → WTy (.slice t)
  /-- `(T, U)` -/
  | tuple {ps : Pieces} : WList ps → WTy (.other (.group c%"(" c%")" ps .nil))
  /-- `[T; N]` -/
  | array {t : Ty} {n : Str} : WTy t → IsWord n → WTy (.other (.group c%"[" c%"]" (.ty t (.tok c%";" (.tok n .nil))) .nil))
  /-- `*const T`, `*mut T` -/
  | pointer {t : Ty} {m : Str} : WTy t → m ∈ [c%"const", c%"mut"] → WTy (.other (.tok c%"*" (.tok m (.ty t .nil))))
  /-- `!` -/
  | never : WTy (.other (.tok c%"!" .nil))
  /-- `_` -/
  | infer : WTy (.other (.tok c%"_" .nil))
  /-- `dyn A + 'a`, `impl A + B` -/
  | bounds {k : Str} {ps : Pieces} : k ∈ [c%"dyn", c%"impl"] → WBounds ps → WTy (.other (.tok k ps))

/-- The segments of a path; at least one. -/
inductive WSegs : Segs → Prop
  | one {i : Str} {a : Args} : IsName i → WArgs a → WSegs (.cons i a .nil)
  | more {i : Str} {a : Args} {r : Segs} : IsName i → WArgs a → WSegs r → WSegs (.cons i a r)

inductive WArgs : Args → Prop
  | none : WArgs .none
  | angle {c : Bool} {ps : Pieces} : WList ps → WArgs (.angle c ps)

/-- Types, lifetimes and literals, with commas in between. -/
inductive WList : Pieces → Prop
  | nil : WList .nil
  | ty {t : Ty} {r : Pieces} : WTy t → WRest r → WList (.ty t r)
  | lifetime {l : Str} {r : Pieces} : IsName l → WRest r → WList (.tok c%"'" (.tok l r))
  | literal {l : Str} {r : Pieces} : IsLiteral l → WRest r → WList (.tok l r)

inductive WRest : Pieces → Prop
  | nil : WRest .nil
  | comma {r : Pieces} : WList r → WRest (.tok c%"," r)

/-- Traits and lifetimes, with `+` in between; at least one. -/
inductive WBounds : Pieces → Prop
  | trait {lead : Bool} {segs : Segs} {r : Pieces} : WSegs segs → WMore r → WBounds (.path lead segs r)
  | lifetime {l : Str} {r : Pieces} : IsName l → WMore r → WBounds (.tok c%"'" (.tok l r))

inductive WMore : Pieces → Prop
  | nil : WMore .nil
  | plus {r : Pieces} : WBounds r → WMore (.tok c%"+" r)

end

end TF.Spec

namespace TF.Spec

/-- A conversion for `u` is applied to arguments of type `t`: `u` is `t`, or `t` is a reference – without a conversion of its own – to
a type that is not a path or a slice, and the same holds of that type. In terms of types, where `Considered` is in terms of tokens. -/
inductive Applies (convert : List (Ty × Ty)) : Ty → Ty → Prop
  | here (t : Ty) : Applies convert t t
  | ref {t u : Ty} (lt : Option Str) (m : Bool) : (∀ p ∈ convert, p.1 ≠ .ref lt m t) → (∀ q lead segs, t ≠ .path q lead segs) →
      (∀ s, t ≠ .slice s) → Applies convert t u → Applies convert (.ref lt m t) u

end TF.Spec
