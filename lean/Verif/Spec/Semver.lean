import Mathlib.Data.List.Forall2
import Verif.Spec.Selection

/-!
# Specification vocabulary: semantic versions

Precedence of versions and caret requirements, after semver.org and the Cargo book. From the model only the data types
`Version` and `PreId` are used.
-/

namespace TF.Spec

/-- `x` comes before `y` in the order of a dictionary over an ordered alphabet: they agree up to some point, and there `x`
ends, or has the smaller letter. -/
def DictBefore {α : Type} (less : α → α → Prop) (x y : List α) : Prop :=
  (∃ c r, y = x ++ c :: r) ∨ (∃ p a b r s, x = p ++ a :: r ∧ y = p ++ b :: s ∧ less a b)

/-- Identifiers of a pre-release tag: numbers by value, text in ASCII order, numbers before text. -/
inductive IdBefore : PreId → PreId → Prop where
  | nums {m n : Nat} : m < n → IdBefore (.num m) (.num n)
  | mixed (n : Nat) (s : Str) : IdBefore (.num n) (.alpha s)
  | texts {s t : Str} : DictBefore (fun a b => a.toNat < b.toNat) s t → IdBefore (.alpha s) (.alpha t)

/-- The three numbers are the same. -/
def SameNumbers (a b : Version) : Prop := a.major = b.major ∧ a.minor = b.minor ∧ a.patch = b.patch

/-- Precedence of versions: by the three numbers; then a pre-release before the release, and pre-releases in the order of
their tags. -/
def Before (a b : Version) : Prop :=
  Newer b a ∨ (SameNumbers a b ∧
    ((¬ Release a ∧ Release b) ∨ (¬ Release a ∧ ¬ Release b ∧ DictBefore IdBefore a.pre b.pre)))

/-- The versions that the requirement `^r` allows: compatible ones that are not before `r`; but a pre-release only if `r`
is a pre-release with the same numbers. -/
def Allows (r v : Version) : Prop :=
  Compatible r v ∧ ¬ Before v r ∧ (Release v ∨ (¬ Release r ∧ SameNumbers r v))

/-- A crate that depends on version `dep` (`none`: it does not depend on the package) may be used with version `tool` of
the tool for that package. -/
def Suits (dep : Option Version) (tool : Version) : Prop :=
  ∃ d, dep = some d ∧ (Release tool → Allows d tool ∨ Allows tool d)

/-! ## The text of versions -/

/-- An ASCII digit. -/
def DigitChar (c : Char) : Prop := '0' ≤ c ∧ c ≤ '9'

/-- A character of an identifier: a letter, a digit or a dash. -/
def IdChar (c : Char) : Prop := DigitChar c ∨ ('A' ≤ c ∧ c ≤ 'Z') ∨ ('a' ≤ c ∧ c ≤ 'z') ∨ c = '-'

/-- An identifier. -/
def Ident (s : Str) : Prop := s ≠ [] ∧ ∀ c ∈ s, IdChar c

/-- `s` is the number `n` in decimal, without leading zeros. -/
def PlainNumber (s : Str) (n : Nat) : Prop :=
  s ≠ [] ∧ (∀ c ∈ s, DigitChar c) ∧ (s.head? = some '0' → s = ['0']) ∧
    s.foldl (fun a c => 10 * a + (c.toNat - '0'.toNat)) 0 = n

/-- `s` is written for an identifier of a pre-release tag: a number without leading zeros, or an identifier that is not
made of digits only. -/
inductive TagId : Str → PreId → Prop where
  | number {s : Str} {n : Nat} : PlainNumber s n → TagId s (.num n)
  | text {s : Str} : Ident s → (∃ c ∈ s, ¬ DigitChar c) → TagId s (.alpha s)

/-- One or more texts with dots between them. -/
inductive Dotted : List Str → Str → Prop where
  | one (x : Str) : Dotted [x] x
  | more {x y : Str} {l : List Str} {s : Str} : Dotted (y :: l) s → Dotted (x :: y :: l) (x ++ '.' :: s)

/-- What may follow the numbers: a pre-release tag. -/
def TagText (pre : List PreId) (t : Str) : Prop :=
  (pre = [] ∧ t = []) ∨ ∃ ids d, List.Forall₂ TagId ids pre ∧ Dotted ids d ∧ t = '-' :: d

/-- And build metadata. -/
def BuildText (build : List Str) (t : Str) : Prop :=
  (build = [] ∧ t = []) ∨ ∃ d, (∀ x ∈ build, Ident x) ∧ Dotted build d ∧ t = '+' :: d

/-- `s` is the text of version `v` with the given build metadata: the grammar of semver.org, with numbers of 64 bits. -/
def VersionText (v : Version) (build : List Str) (s : Str) : Prop :=
  ∃ a b c t u, PlainNumber a v.major ∧ PlainNumber b v.minor ∧ PlainNumber c v.patch ∧
    v.major < 2 ^ 64 ∧ v.minor < 2 ^ 64 ∧ v.patch < 2 ^ 64 ∧ TagText v.pre t ∧ BuildText build u ∧
    s = a ++ c%"." ++ b ++ c%"." ++ c ++ t ++ u

/-- ASCII white space. -/
def Blank (c : Char) : Prop := c ∈ [' ', '\t', '\n', '\x0c', '\r']

end TF.Spec
