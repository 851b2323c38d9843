import Verif.Model.DebugText
import Mathlib.Data.List.Forall2

/-! # What is shown for arguments and results -/

namespace TF.Spec

open TF

/-- Complete lines, and the same lines indented by four spaces. -/
inductive Indented : Str → Str → Prop where
  | nil : Indented [] []
  | line {l s t : Str} : '\n' ∉ l → Indented s t → Indented (l ++ '\n' :: s) (c%"    " ++ l ++ '\n' :: t)

/-- The text shown for a value: what its `Debug` writes, or the name of its type. -/
inductive TextOf (pretty : Bool) : Shown → Str → Prop where
  | debug (d : Dbg) : TextOf pretty (.debug d) (d pretty).flatten
  | unknown (t : Str) : TextOf pretty (.unknown t) (c%"<unknown of type " ++ t ++ c%">")

/-- `name: text`. -/
def fieldText (f : Str × Str) : Str := f.1 ++ c%": " ++ f.2

/-- The text shown for arguments, on one line or on many. -/
inductive ArgsText : Bool → List (Str × Str) → Str → Prop where
  | empty (pretty : Bool) : ArgsText pretty [] c%"Args"
  | plain {fs : List (Str × Str)} : fs ≠ [] →
      ArgsText false fs (c%"Args { " ++ joinWith c%", " (fs.map fieldText) ++ c%" }")
  | pretty {fs : List (Str × Str)} {t : Str} : fs ≠ [] → Indented (fs.flatMap fun f => fieldText f ++ c%",\n") t →
      ArgsText true fs (c%"Args {\n" ++ t ++ c%"}")

/-- The text shown for a result. -/
inductive RetText : Bool → Str → Str → Prop where
  | plain {s : Str} : RetText false s (c%"Ret(" ++ s ++ c%")")
  | pretty {s t : Str} : Indented (s ++ c%",\n") t → RetText true s (c%"Ret(\n" ++ t ++ c%")")

/-- Every line but the first begins with a space or with a closing bracket. -/
def Tidy (s : Str) : Prop :=
  ∀ a b, s = a ++ '\n' :: b → ∃ c r, b = c :: r ∧ c ∈ [' ', ')', ']', '}']

/-- The name of a field: it has no colon, and does not begin like a further line of a value. -/
def FieldName (n : Str) : Prop :=
  ':' ∉ n ∧ ∃ c r, n = c :: r ∧ c ∉ [' ', ')', ']', '}']

/-- The name under which a parameter is shown. -/
inductive NamedAs : FnArg → Str → Prop where
  | self {attrs : List Str} {m : Bool} {k : Recv} : NamedAs (.receiver attrs m k) c%"self"
  | ident {attrs : List Str} {p : PatInfo} {ty : Ty} {i : Str} : p.idents = [i] → NamedAs (.typed attrs p ty) i
  | anonymous {attrs : List Str} {p : PatInfo} {ty : Ty} (k : Nat) : p.idents = [] →
      NamedAs (.typed attrs p ty) (c%"_" ++ natStr k)

/-- The fields of the struct of arguments, with their texts. -/
def TextsOf (pretty : Bool) (fields : List (Str × Shown)) (texts : List (Str × Str)) : Prop :=
  List.Forall₂ (fun f t => f.1 = t.1 ∧ TextOf pretty f.2 t.2) fields texts

end TF.Spec
