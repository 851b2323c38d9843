import Verif.Spec.Recording
import Verif.Spec.Naming
import Verif.Spec.Selection

/-!
# Specification vocabulary for consolidate and reset
-/

namespace TF.Spec

/-- The fuzzer's findings below an output directory: crash, hang and queue entries, except the
fuzzer's own bookkeeping (`README.txt`, `.state`). -/
def IsFinding (fs : FS) (out : Path) (p : Path) (b : Bytes) : Prop :=
  ∃ sub name, sub ∈ [c%"crashes", c%"hangs", c%"queue"] ∧ name ≠ c%"README.txt" ∧ name ≠ c%".state" ∧
    p = out ++ [c%"default", sub, name] ∧ HasFile fs p b

/-- `p` is at or below `d`. -/
def Below (d p : Path) : Prop := d <+: p

/-- Only existing directories have entries. -/
def WellFormed (fs : FS) : Prop := ∀ p x, fs (p ++ [x]) ≠ none → p = [] ∨ fs p = some .dir

/-- A directory with finitely many entries. -/
def FiniteDir (fs : FS) (d : Path) : Prop := ∃ l : List Str, ∀ n, n ∈ l ↔ (fs (d ++ [n])).isSome

/-- A directory listing that lists every finite directory completely, each entry once, in some order. -/
def GoodLister (ls : Lister) : Prop := ∀ fs d, FiniteDir fs d → ls.Correct fs d

/-- The selection is exactly one target of one executable. -/
def Single (ets : List (Exe × List Str)) : Prop := ∃ e t, ets = [(e, [t])]

/-- No input/output operation fails (the process may still be killed at any point). -/
def NoIoErrors (pl : Plan) : Prop := ∀ n q, pl n ≠ .err q

end TF.Spec
