import Verif.Rust.Str

/-!
# File system with failures and crashes

A file system is a function from absolute paths (lists of components) to nodes. Symbolic links,
permissions and `..` components are not modelled. The primitive operations are performed under a
*plan*, which decides for the n-th operation whether it succeeds, fails, or whether the process dies
in the middle of it, and in the two last cases which part of the effect happened. Theorems that
quantify over all plans therefore cover all I/O errors, crash points and partial effects.
-/

namespace TF

/-- Absolute path as a list of components. -/
abbrev Path := List Str

inductive Node where
  | dir
  | file (data : Bytes)
  deriving DecidableEq, Repr

abbrev FS := Path → Option Node

/-- Replace the node at one path. -/
def FS.set (fs : FS) (p : Path) (n : Option Node) : FS := fun q => if q = p then n else fs q

/-- `Path::exists`. -/
def FS.exists (fs : FS) (p : Path) : Bool := (fs p).isSome

/-- `Path::is_dir`. The root always exists. -/
def FS.isDir (fs : FS) (p : Path) : Bool := p.isEmpty || fs p == some .dir

/-- How much of an interrupted operation took effect: `steps` elementary steps of an operation that
proceeds in order; `gone` paths already removed by an interrupted removal. -/
structure Part where
  steps : Nat
  gone : Path → Bool

/-- What happens to one operation. -/
inductive Fate where
  | ok
  | err (p : Part)
  | crash (p : Part)

abbrev Plan := Nat → Fate

/-- No operation fails. -/
def Plan.clean : Plan := fun _ => .ok

/-- The world an I/O computation acts on: the file system and the number of operations so far. -/
structure World where
  fs : FS
  tick : Nat

/-- I/O computations. -/
def IOm (α : Type) := Plan → World → Out α × World

namespace IOm

def ret {α} (a : α) : IOm α := fun _ w => (.ok a, w)

/-- Computation without effects. -/
def lift {α} (x : Out α) : IOm α := fun _ w => (x, w)

def bind {α β} (x : IOm α) (f : α → IOm β) : IOm β := fun pl w =>
  match x pl w with
  | (.ok a, w') => f a pl w'
  | (.err e, w') => (.err e, w')
  | (.panic, w') => (.panic, w')
  | (.exit c, w') => (.exit c, w')
  | (.crash, w') => (.crash, w')

instance : Monad IOm where
  pure := ret
  bind := bind

/-- `Result::unwrap`: an error becomes a panic. -/
def unwrap {α} (x : IOm α) : IOm α := fun pl w =>
  match x pl w with
  | (.err _, w') => (.panic, w')
  | r => r

/-- `Result::unwrap_or_default` on `io::Result<()>`: an error is ignored. -/
def ignore (x : IOm Unit) : IOm Unit := fun pl w =>
  match x pl w with
  | (.err _, w') => (.ok (), w')
  | r => r

/-- One primitive operation: `full` is its complete effect (or an error decided by the state of the
file system, without effect), `part` its possible partial effects. -/
def prim {α} (full : FS → Out (α × FS)) (part : Part → FS → FS) : IOm α := fun pl w =>
  match pl w.tick with
  | .ok =>
    match full w.fs with
    | .ok (a, fs') => (.ok a, ⟨fs', w.tick + 1⟩)
    | .err e => (.err e, ⟨w.fs, w.tick + 1⟩)
    | .panic => (.panic, ⟨w.fs, w.tick + 1⟩)
    | .exit c => (.exit c, ⟨w.fs, w.tick + 1⟩)
    | .crash => (.crash, ⟨w.fs, w.tick + 1⟩)
  | .err q => (.err c%"io", ⟨part q w.fs, w.tick + 1⟩)
  | .crash q => (.crash, ⟨part q w.fs, w.tick + 1⟩)

end IOm

/-- The paths `p` must have as directories, shortest first: `p.take 1`, ..., `p`. -/
def Path.ancestors (p : Path) : List Path := (List.range p.length).map fun i => p.take (i + 1)

/-- Create the listed directories in order; stop at a non-directory. -/
def mkdirs : List Path → FS → FS × Bool
  | [], fs => (fs, true)
  | p :: ps, fs =>
    match fs p with
    | some .dir => mkdirs ps fs
    | some (.file _) => (fs, false)
    | none => mkdirs ps (fs.set p (some .dir))

/-- `std::fs::create_dir_all`. Partial effect: the first `steps` ancestors have been handled. -/
def createDirAll (p : Path) : IOm Unit :=
  IOm.prim
    (fun fs => match mkdirs p.ancestors fs with
      | (fs', true) => .ok ((), fs')
      -- in a file system where only directories have children, a non-directory is met before
      -- anything is created
      | (_, false) => .err c%"not a directory")
    (fun q fs => (mkdirs (p.ancestors.take q.steps) fs).1)

/-- `std::fs::write(p, data)`: open with create and truncate, then write everything.
Partial effect: nothing (`steps = 0`), or the file holds the first `steps - 1` bytes. -/
def writeFile (p : Path) (data : Bytes) : IOm Unit :=
  IOm.prim
    (fun fs =>
      if p = [] || fs p == some .dir || !fs.isDir p.dropLast then .err c%"open failed"
      else .ok ((), fs.set p (some (.file data))))
    (fun q fs =>
      if p = [] || fs p == some .dir || !fs.isDir p.dropLast then fs
      else match q.steps with
        | 0 => fs
        | k + 1 => fs.set p (some (.file (data.take k))))

/-- `std::fs::read(p)`. -/
def readFile (p : Path) : IOm Bytes :=
  IOm.prim
    (fun fs => match fs p with
      | some (.file d) => .ok (d, fs)
      | _ => .err c%"read failed")
    (fun _ fs => fs)

/-- Enumeration order of directories: an arbitrary function of the state. -/
abbrev Lister := FS → Path → List Str

/-- A lister lists a directory correctly: every entry once, nothing else. -/
def Lister.Correct (ls : Lister) (fs : FS) (p : Path) : Prop :=
  (ls fs p).Nodup ∧ ∀ n, n ∈ ls fs p ↔ (fs (p ++ [n])).isSome

/-- `std::fs::read_dir(p)`, all entries. Simplification: the entries are read at once; the code reads
them one at a time, while writing only to other directories. -/
def readDir (ls : Lister) (p : Path) : IOm (List Str) :=
  IOm.prim
    (fun fs => if fs.isDir p then .ok (ls fs p, fs) else .err c%"read_dir failed")
    (fun _ fs => fs)

/-- Remove a subtree. -/
def FS.removeTree (fs : FS) (p : Path) : FS := fun q => if p.isPrefixOf q then none else fs q

/-- `std::fs::remove_dir_all(p)`. Partial effect: any part of the subtree is gone, where what is below something that is gone is
gone too (directories are removed after their entries). -/
def removeDirAll (p : Path) : IOm Unit :=
  IOm.prim
    (fun fs => if fs p == some .dir then .ok ((), fs.removeTree p) else .err c%"remove failed")
    (fun q fs => fun x =>
      if (List.range (x.length + 1)).any fun i => p.isPrefixOf (x.take i) && q.gone (x.take i) then none else fs x)

/-- `Path::exists` as an operation: cannot fail (an error counts as "does not exist"; this happens
only under plans that fail it). -/
def pathExists (p : Path) : IOm Bool := fun pl w =>
  match pl w.tick with
  | .ok => (.ok (w.fs.exists p), ⟨w.fs, w.tick + 1⟩)
  | .err _ => (.ok false, ⟨w.fs, w.tick + 1⟩)
  | .crash _ => (.crash, ⟨w.fs, w.tick + 1⟩)

/-- `Path::join(s)` for text `s`: an absolute `s` replaces the path; empty and `.` components vanish. -/
def Path.join (p : Path) (s : Str) : Path :=
  let comps := (splitChar '/' s).filter fun c => !(c.isEmpty || c == ['.'])
  if s.head? = some '/' then comps else p ++ comps

end TF
