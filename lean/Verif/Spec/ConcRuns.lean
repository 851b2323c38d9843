import Verif.Model.ConcRuns
import Verif.Spec.ConcRecord

/-!
# Tests and consolidations at the same time: what is expected
-/

namespace TF.Spec

open TF.Par

/-- The process is to copy the directory `d` to the corpus `c`. -/
def Copies (p : Proc) (d c : Path) : Prop := ∃ dirs o sn w, p.script = .scan dirs o sn w ∧ (d, c) ∈ dirs

/-- The process is to remove the directory `q`. -/
def Wipes (p : Proc) (q : Path) : Prop := ∃ dirs o sn w, p.script = .scan dirs o sn w ∧ q ∈ w

/-- There is an input `x`, at `q`, that the process is to bring to the corpus `c`. -/
def Finding (fs : FS) (p : Proc) (q c : Path) (x : Bytes) : Prop :=
  ∃ d n, Copies p d c ∧ q = d ++ [n] ∧ n ≠ c%"README.txt" ∧ n ≠ c%".state" ∧ fs q = some (.file x)

/-- Something is to be recorded: by a test, or because it is a finding. -/
def Wanted {ι : Type} (fs : FS) (ps : ι → Proc) (j : Path × Bytes) : Prop :=
  ∃ i, (∃ js, (ps i).script = .tests js ∧ j ∈ js) ∨ ∃ q, Finding fs (ps i) q j.1 j.2

/-- Tests and consolidations begin, in a file system where nothing is in the way of what is to be recorded. Output directories and
corpora are apart, and who removes an output directory copies all that is found there. -/
structure Together {ι : Type} (fs : FS) (ps : ι → Proc) : Prop where
  fresh : ∀ i, (ps i).past = [] ∧ (ps i).cur = none ∧
    ((∃ js, (ps i).script = .tests js) ∨ ∃ dirs w, (ps i).script = .scan dirs false [] w)
  rooted : Rooted fs
  clear : Clear fs (Wanted fs ps)
  apart : ∀ i p, Wipes (ps i) p → ∀ j, Wanted fs ps j → ¬ p <+: j.1 ∧ ¬ j.1 <+: p
  sources : ∀ i d c, Copies (ps i) d c → ∀ j, Wanted fs ps j → j.1 ≠ d
  copied : ∀ i p, Wipes (ps i) p → ∀ l q c x, Finding fs (ps l) q c x → p <+: q → Finding fs (ps i) q c x

/-- Somebody is writing `x` to the corpus `c` at this moment (or has died while doing so). -/
def Writing {ι : Type} (ps : ι → Proc) (c : Path) (x : Bytes) : Prop := ∃ l n, (ps l).cur = some ((c, x), .writing n)

/-- From `fs`, exactly the recordings `use` were made, and what is `gone` was removed. -/
structure AllDone (fs fs' : FS) (use : Path × Bytes → Prop) (gone : Path → Prop) : Prop where
  files : ∀ j, use j → fs' (j.1 ++ [fileName j.2]) = some (.file j.2)
  dirs : ∀ j, use j → ∀ p, p ≠ [] → p <+: j.1 → fs' p = some .dir
  removed : ∀ p, gone p → fs' p = none
  rest : ∀ p, (∀ j, use j → p ≠ j.1 ++ [fileName j.2]) → (∀ j, use j → p = [] ∨ ¬ p <+: j.1) → ¬ gone p → fs' p = fs p

/-- A test or a consolidation has succeeded. -/
def Finished (p : Proc) : Prop := p.cur = none ∧ (p.script = .tests [] ∨ p.script = .scan [] false [] [])

end TF.Spec
