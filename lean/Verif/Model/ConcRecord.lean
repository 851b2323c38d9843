import Verif.Model.ConcWrite
import Verif.Rust.Fs

/-!
# Recording by any number of threads and processes

Interleaving semantics of runtime/src/lib.rs:189-197 (`write_data`), down to system calls: `create_dir_all` tries to create
the directory, if its parent is missing it goes up until a directory can be created or exists, and then down again
(`std::fs::DirBuilder::create_dir_all`); `write` opens the file with create and truncate and writes in chunks of any sizes.
A test performs any sequence of recordings: three for each instrumented call (macro/src/lib.rs:503-512). System calls are
atomic and succeed if they can; a test that dies just makes no further steps. Nobody removes files of a corpus, so a file
descriptor stands for a path.
-/

namespace TF.Par

open TF.Conc

/-- What is recorded: a directory and data. -/
abbrev Job := Path × Bytes

/-- Where it is recorded (runtime/src/lib.rs:195). -/
def Job.file (j : Job) : Path := j.1 ++ [fileName j.2]

/-- Result of `mkdir(2)`. -/
inductive Made where
  | made
  /-- `ErrorKind::NotFound`. -/
  | noParent
  /-- It exists, or the parent is not a directory. -/
  | other
  deriving DecidableEq

/-- `mkdir(2)`. Simplified: if the parent is missing because something above it is a file, this is `NotFound`, too; then
`create_dir_all` notices the file one step later. -/
def mkdir (fs : FS) (p : Path) : FS × Made :=
  if p = [] ∨ (fs p).isSome then (fs, .other)
  else if fs.isDir p.dropLast then (fs.set p (some .dir), .made)
  else if fs p.dropLast = none then (fs, .noParent)
  else (fs, .other)

/-- What a thread does next. `rest`: the directories that are still to be created, below the one at hand. -/
inductive Pc where
  /-- Begin with the next recording. -/
  | begin
  /-- The first call of `mkdir` for `p`. -/
  | mkdir (p : Path) (rest : List Path)
  /-- The second one, after the parent has been created. -/
  | again (p : Path) (rest : List Path)
  /-- `path.is_dir()`, after a failed `mkdir`. -/
  | check (p : Path) (rest : List Path)
  | opening
  /-- So many bytes are written. -/
  | writing (pos : Nat)
  /-- `write_data(..).unwrap()` has panicked. -/
  | panicked
  deriving DecidableEq

/-- A thread: what it has recorded (for the claims), what it is to record, what it does. -/
structure Thr where
  past : List Job := []
  jobs : List Job
  pc : Pc := .begin

/-- `create_dir_all` returns `Ok(())` for a directory: back to the one below, or to `write_data`. -/
def returned : List Path → Pc
  | [] => .opening
  | p :: rest => .again p rest

/-- One step with the recording `j` at hand; `k + 1` is the size of the chunk that the operating system is willing to write.
The result `true`: the recording is finished. -/
def jobStep (k : Nat) (fs : FS) (j : Job) : Pc → FS × Pc × Bool
  | .begin => (fs, .mkdir j.1 [], false)
  | .mkdir p rest =>
    match mkdir fs p with
    | (fs', .made) => (fs', returned rest, false)
    | (_, .noParent) => (fs, .mkdir p.dropLast (p :: rest), false)
    | (_, .other) => (fs, .check p rest, false)
  | .again p rest =>
    match mkdir fs p with
    | (fs', .made) => (fs', returned rest, false)
    | (_, .noParent) => (fs, .check p rest, false)
    | (_, .other) => (fs, .check p rest, false)
  -- runtime/src/lib.rs:190: an error of `create_dir_all` is ignored
  | .check p rest => (fs, if fs.isDir p then returned rest else .opening, false)
  | .opening =>
    if fs j.file = some .dir ∨ fs.isDir j.1 = false then (fs, .panicked, false)
    else (fs.set j.file (some (.file [])), .writing 0, false)
  | .writing pos =>
    if j.2.length ≤ pos then (fs, .begin, true)
    else
      match fs j.file with
      | some (.file c) =>
        let chunk := (j.2.drop pos).take (k + 1)
        (fs.set j.file (some (.file (overwrite c pos chunk))), .writing (pos + chunk.length), false)
      | _ => (fs, .panicked, false)
  | .panicked => (fs, .panicked, false)

/-- One step of a thread. -/
def Thr.step (k : Nat) (fs : FS) (t : Thr) : FS × Thr :=
  match t.jobs with
  | [] => (fs, t)
  | j :: js =>
    match jobStep k fs j t.pc with
    | (fs', pc, false) => (fs', { t with pc := pc })
    | (fs', pc, true) => (fs', ⟨t.past ++ [j], js, pc⟩)

/-- The file system and the threads. -/
structure State (ι : Type) where
  fs : FS
  thr : ι → Thr

/-- The thread `i` makes a step. -/
def State.step {ι : Type} [DecidableEq ι] (i : ι) (k : Nat) (s : State ι) : State ι :=
  let r := (s.thr i).step k s.fs
  ⟨r.1, fun j => if j = i then r.2 else s.thr j⟩

/-- Before anything is recorded. -/
def State.initial {ι : Type} (fs : FS) (todo : ι → List Job) : State ι := ⟨fs, fun i => { jobs := todo i }⟩

/-- What can be reached by any interleaving. -/
inductive Reaches {ι : Type} [DecidableEq ι] (fs : FS) (todo : ι → List Job) : State ι → Prop where
  | initial : Reaches fs todo (.initial fs todo)
  | step {s : State ι} (i : ι) (k : Nat) : Reaches fs todo s → Reaches fs todo (s.step i k)

/-- A given interleaving: who makes a step, and how much may be written. -/
def run {ι : Type} [DecidableEq ι] (s : State ι) (sched : List (ι × Nat)) : State ι :=
  sched.foldl (fun s x => s.step x.1 x.2) s

end TF.Par
