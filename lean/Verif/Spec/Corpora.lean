import Verif.Spec.Run

/-! # Specification vocabulary for missing corpora -/

namespace TF.Spec

/-- What happened for one target: the file system before and after, and the generation run, if any, with its outcome
(`none`: it could not be run; otherwise whether it succeeded). -/
structure GenStep where
  exe : Exe
  target : Str
  corpus : Path
  before : FS
  after : FS
  ran : Option (Cmd × Option Bool)

/-- The target's generation test is run exactly if it has no corpus, in the environment of the program with the variables
`llvm`; otherwise nothing happens. -/
structure GenStep.Faithful (y : Sys) (llvm : List (Str × Str)) (s : GenStep) : Prop where
  corpus_eq : corpusDirFromTarget y.ctx s.exe.name s.target = .ok s.corpus
  idle : s.before s.corpus ≠ none → s.ran = none ∧ s.after = s.before
  run : s.before s.corpus = none → ∃ cmd r acts, s.ran = some (cmd, r) ∧ cmd.program = s.exe.path ∧
    cmd.args = [c%"--exact", s.target ++ c%"_fuzz__::auto_generate"] ∧
    cmd.envs = llvm.map (fun x => (x.1, some x.2)) ∧ cmd.cwd = none ∧ y.command acts cmd s.before = (r, s.after)

/-- The target ends up without a corpus, or its generation test failed. -/
def GenStep.Fails (s : GenStep) : Prop :=
  ∃ cmd r, s.ran = some (cmd, r) ∧ (r ≠ some true ∨ s.after s.corpus = none)

/-- Each step begins where the one before it ended. -/
def Linked : FS → List GenStep → FS → Prop
  | a, [], b => a = b
  | a, s :: ss, b => s.before = a ∧ Linked s.after ss b

/-- One line about a failing target. -/
def LineFor (s : GenStep) (line : Str) : Prop :=
  ∃ cmd r, s.ran = some (cmd, r) ∧
    (r = none ∧ line = c%"Could not get status of" ∨ r = some false ∧ line = c%"Command failed:" ∨
      r = some true ∧ s.after s.corpus = none ∧
        line = c%"Could not find or auto-generate `" ++ pathStr s.corpus ++ c%"`. Please ensure `" ++ s.target ++
          c%"` is tested.")

/-- The commands among the actions. -/
def commandOf : Act → Option Cmd
  | .command c => some c
  | _ => none

/-- The program looks at the disk without errors and is not killed. -/
def Reliable (y : Sys) : Prop := ∀ n, y.plan n = .ok

/-- Generation runs do not remove what is there. -/
def OnlyAdds (y : Sys) : Prop := ∀ acts c fs p, fs p ≠ none → (y.command acts c fs).2 p ≠ none

end TF.Spec
