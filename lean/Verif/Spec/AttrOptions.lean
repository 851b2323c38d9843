import Verif.Model.AttrOptions
import Mathlib.Data.List.Forall2

/-! # What options of the attribute mean -/

namespace TF.Spec

open TF

def textName : TextOpt → Str
  | .bounds => c%"bounds"
  | .executeWith => c%"execute_with"
  | .genericArgs => c%"generic_args"
  | .implGenericArgs => c%"impl_generic_args"
  | .rename => c%"rename"

def flagName : FlagOpt → Str
  | .enableInProduction => c%"enable_in_production"
  | .noAutoGenerate => c%"no_auto_generate"
  | .onlyGenericArgs => c%"only_generic_args"

def keyName : OptKey → Str
  | .text o => textName o
  | .flag o => flagName o
  | .convert => c%"convert"

/-- A string. -/
inductive IsText : ValM → Str → Prop where
  | str (s : Str) : IsText (.str s) s
  | group {v : ValM} {s : Str} : IsText v s → IsText (.group v) s

/-- A truth value, possibly in quotes. -/
inductive IsTruth : ValM → Bool → Prop where
  | bool (b : Bool) : IsTruth (.bool b) b
  | true : IsTruth (.str c%"true") true
  | false : IsTruth (.str c%"false") false
  | group {v : ValM} {b : Bool} : IsTruth v b → IsTruth (.group v) b

/-- An identifier in quotes; without quotes if this is supported. -/
inductive IsIdentifier (x : OptSyntax) : ValM → Str → Prop where
  | str {s : Str} : x.ident s = true → IsIdentifier x (.str s) s
  | bare {s : Str} : x.bareIdents = true → IsIdentifier x (.ident s) s
  | group {v : ValM} {s : Str} : IsIdentifier x v s → IsIdentifier x (.group v) s

/-- `name = "text"` -/
inductive SaysText (x : OptSyntax) : TextOpt → NestedM → Str → Prop where
  | text {o : TextOpt} {v : ValM} {s : Str} : o ≠ .rename → IsText v s → SaysText x o (.item (.value (textName o) v)) s
  | rename {v : ValM} {s : Str} : IsIdentifier x v s → SaysText x .rename (.item (.value (textName .rename) v)) s

/-- `name`, `name = true` or `name = false` -/
inductive SaysFlag : FlagOpt → NestedM → Bool → Prop where
  | word (o : FlagOpt) : SaysFlag o (.item (.word (flagName o))) true
  | value (o : FlagOpt) {v : ValM} {b : Bool} : IsTruth v b → SaysFlag o (.item (.value (flagName o) v)) b

/-- `convert = "text"` -/
inductive SaysConvert : NestedM → Str → Prop where
  | value {v : ValM} {s : Str} : IsText v s → SaysConvert (.item (.value c%"convert" v)) s

/-- The item is one of the options, with a value of the right kind. -/
def IsOption (x : OptSyntax) (i : NestedM) : Prop :=
  (∃ o s, SaysText x o i s) ∨ (∃ o b, SaysFlag o i b) ∨ ∃ s, SaysConvert i s

/-- Not the same option twice, except for conversions. -/
def OptsApart : NestedM → NestedM → Prop
  | .item m, .item m' => m.name = m'.name → m.name = c%"convert"
  | _, _ => True

/-- The texts of the conversions, in order. -/
inductive ConvertTexts : List NestedM → List Str → Prop where
  | nil : ConvertTexts [] []
  | take {i : NestedM} {l : List NestedM} {s : Str} {ss : List Str} :
      SaysConvert i s → ConvertTexts l ss → ConvertTexts (i :: l) (s :: ss)
  | skip {i : NestedM} {l : List NestedM} {ss : List Str} :
      (∀ s, ¬ SaysConvert i s) → ConvertTexts l ss → ConvertTexts (i :: l) ss

end TF.Spec
