import Verif.Model.Targets

/-!
# Specification vocabulary for the text of `--list`

Only types of the model are used.
-/

namespace TF.Spec

/-- Lines, each ended by a newline. -/
def unlines (l : List Str) : Str := l.flatMap fun x => x ++ c%"\n"

/-- What is shown for an executable and its targets: path, name, the texts of the two versions, the names of the targets. -/
structure Entry where
  path : Str
  name : Str
  testFuzz : Str
  afl : Str
  targets : List Str

/-- The lines for the targets of an executable. `q`: how text is quoted. -/
def targetLines (q : Str → Str) (ts : List Str) : List Str :=
  if ts = [] then [c%"        [],"]
  else [c%"        ["] ++ ts.map (fun t => c%"            " ++ q t ++ c%",") ++ [c%"        ],"]

/-- The lines for an executable. `qp`: how paths are quoted. -/
def entryLines (qp q : Str → Str) (x : Entry) : List Str :=
  [c%"    (", c%"        Executable {", c%"            path: " ++ qp x.path ++ c%",", c%"            name: " ++ q x.name ++ c%",",
    c%"            test_fuzz_version: " ++ q x.testFuzz ++ c%",", c%"            afl_version: " ++ q x.afl ++ c%",", c%"        },"] ++
    targetLines q x.targets ++ [c%"    ),"]

/-- The whole listing. -/
def listingLines (qp q : Str → Str) (l : List Entry) : List Str :=
  if l = [] then [c%"[]"] else [c%"["] ++ l.flatMap (entryLines qp q) ++ [c%"]"]

/-- A way to put text into quotes: what results is in quotes and on one line, and tells texts apart. -/
structure Quoting (q : Str → Str) : Prop where
  quotes : ∀ s, ∃ m, q s = c%"\"" ++ m ++ c%"\""
  line : ∀ s, '\n' ∉ q s
  inj : ∀ s s', q s = q s' → s = s'

end TF.Spec
