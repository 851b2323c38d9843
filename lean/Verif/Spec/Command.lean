import Verif.Model.Command
import Verif.Model.Run
import Verif.Spec.Naming

/-! # Specification vocabulary for the commands that are run -/

namespace TF.Spec

/-- Decimal notation of a number. -/
def Denotes (s : Str) (n : Nat) : Prop :=
  s ≠ [] ∧ (∀ c ∈ s, c.isDigit = true) ∧ s.foldl (fun a c => 10 * a + (c.toNat - '0'.toNat)) 0 = n

/-- The options a fuzzer is to get, each with its value. `corpus`, `out`: the target's directories; `fresh`: there is
no earlier session to be resumed; `enough`: there is a cpu for every target. -/
inductive FuzzerOption (o : Opts) (corpus out : Path) (fresh enough : Bool) : Str → Str → Prop
  | corpus : fresh = true → FuzzerOption o corpus out fresh enough c%"-i" (pathStr corpus)
  | session : fresh = false → FuzzerOption o corpus out fresh enough c%"-i" c%"-"
  | output : FuzzerOption o corpus out fresh enough c%"-o" (pathStr out)
  | name : FuzzerOption o corpus out fresh enough c%"-M" c%"default"
  | slice {v} : enough = false → Denotes v o.slice → FuzzerOption o corpus out fresh enough c%"-V" v
  | total {t v} : enough = true → o.maxTotalTime = some t → Denotes v t →
      FuzzerOption o corpus out fresh enough c%"-V" v
  | timeout {t v} : o.timeout = some t → Denotes v (1000 * t) → FuzzerOption o corpus out fresh enough c%"-t" v

/-- The last change of a variable in a list of changes. -/
def LastChange (l : List (Str × Option Str)) (k : Str) (v : Option Str) : Prop :=
  ∃ pre post, l = pre ++ (k, v) :: post ∧ ∀ x ∈ post, x.1 ≠ k

/-- A proper list of path components. -/
def Proper (p : Path) : Prop := ∀ s ∈ p, s ≠ [] ∧ s ≠ c%"." ∧ '/' ∉ s

/-- Where a path below one directory is moved to below another; the directory itself gets a slash at its end. -/
inductive Moved (from_ to_ : Path) : Path → Str → Prop
  | below {x r} : Moved from_ to_ (from_ ++ x :: r) (pathStr (to_ ++ x :: r))
  | itself : Moved from_ to_ from_ (pathStr to_ ++ c%"/")
  | elsewhere {p} : ¬ from_ <+: p → Moved from_ to_ p (pathStr p)

/-- `line` is one of the lines of `b`: it begins after a newline or at the beginning and ends at a newline (which a
carriage return may precede) or at the end. -/
def IsLineOf (line b : Bytes) : Prop :=
  ∃ pre post, b = pre ++ line ++ post ∧ (pre = [] ∨ pre.getLast? = some 10) ∧
    (post = [] ∨ post.head? = some 10 ∨ post = [13] ∨ [13, 10] <+: post)

/-- The executable was built and lists the harness of the target. -/
def Listed (y : Sys) (e : Exe) (t : Str) : Prop :=
  (∃ fs msgs id, (y.build fs).1 = .done msgs (some true) ∧ .artifact id e.name true (some e.path) ∈ msgs) ∧
  ∃ b, y.listing e = some b ∧ IsLineOf (utf8Encode (t ++ c%"_fuzz__::entry: test")) b

/-- A test is run only if it belongs to a target that was listed: the harness itself, or `auto_generate` beside it. -/
inductive RunsListed (y : Sys) : Act → Prop
  | harness {e t f i} : Listed y e t →
      RunsListed y (.harness [c%"--exact", t ++ c%"_fuzz__::entry", c%"--nocapture"] e.path f i)
  | generate {e t c} : Listed y e t → c.program = e.path → c.args = [c%"--exact", t ++ c%"_fuzz__::auto_generate"] →
      RunsListed y (.command c)
  | fuzz {e t c l} : Listed y e t → c.program = c%"cargo" →
      c.args = [c%"afl", c%"fuzz"] ++ l ++ [c%"--", e.path, c%"--exact", t ++ c%"_fuzz__::entry"] →
      RunsListed y (.command c)
  | coverage {c l} : c.program = c%"cargo" → c.args = c%"llvm-cov" :: l → RunsListed y (.command c)
  | loop {ets n} : (∀ x ∈ ets, Listed y x.1 x.2) → RunsListed y (.fuzzLoop ets n)
  | other {a} : (∀ x e f i, a ≠ .harness x e f i) → (∀ c, a ≠ .command c) → (∀ ets n, a ≠ .fuzzLoop ets n) →
      RunsListed y a

end TF.Spec
