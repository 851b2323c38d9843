import Verif.Model.ConcRecord
import Verif.Model.Storage

/-!
# Tests, consolidations and fuzzers at the same time

Interleaving semantics of processes: tests that record (Model/ConcRecord); runs of `cargo test-fuzz` that consolidate and reset
(cargo-test-fuzz/src/lib.rs:767-831), which read directories entry by entry, copy each input with `write_data` and then remove the
output directories entry by entry; fuzzers, which add files. A process can die at any time: it makes no further steps.
-/

namespace TF.Par

/-- What a process has still to do. -/
inductive Script where
  /-- A test: recordings. -/
  | tests (js : List Job)
  /-- `consolidate` and `reset`: the directories that are to be copied, each with the corpus (cargo-test-fuzz/src/lib.rs:774-779);
  whether the first of them is open, and what was read of it; the output directories that are to be removed. -/
  | scan (dirs : List (Path × Path)) (opened : Bool) (seen : List Str) (wipe : List Path)
  /-- A fuzzer: the files that it adds. -/
  | fuzz (finds : List (Path × Bytes))
  /-- The command has returned an error. -/
  | failed

/-- A process: what it has recorded (for the claims), the recording at hand, and what is to be done. -/
structure Proc where
  past : List Job := []
  cur : Option (Job × Pc) := none
  script : Script

/-- One step of a process. -/
inductive PStep : FS → Proc → FS → Proc → Prop where
  /-- A step of `write_data`. -/
  | write {fs fs' : FS} {past : List Job} {j : Job} {pc pc' : Pc} {sc : Script} (k : Nat) (h : jobStep k fs j pc = (fs', pc', false)) :
    PStep fs ⟨past, some (j, pc), sc⟩ fs' ⟨past, some (j, pc'), sc⟩
  /-- The last one. -/
  | written {fs fs' : FS} {past : List Job} {j : Job} {pc pc' : Pc} {sc : Script} (k : Nat) (h : jobStep k fs j pc = (fs', pc', true)) :
    PStep fs ⟨past, some (j, pc), sc⟩ fs' ⟨past ++ [j], none, sc⟩
  /-- A test begins with a recording. -/
  | record {fs : FS} {past : List Job} {j : Job} {js : List Job} :
    PStep fs ⟨past, none, .tests (j :: js)⟩ fs ⟨past, some (j, .begin), .tests js⟩
  /-- cargo-test-fuzz/src/lib.rs:780: `read_dir`. -/
  | opens {fs : FS} {past : List Job} {d c : Path} {r : List (Path × Path)} {w : List Path} (h : fs.isDir d) :
    PStep fs ⟨past, none, .scan ((d, c) :: r) false [] w⟩ fs ⟨past, none, .scan ((d, c) :: r) true [] w⟩
  /-- cargo-test-fuzz/src/lib.rs:781: it fails. -/
  | noDir {fs : FS} {past : List Job} {d c : Path} {r : List (Path × Path)} {w : List Path} (h : fs.isDir d = false) :
    PStep fs ⟨past, none, .scan ((d, c) :: r) false [] w⟩ fs ⟨past, none, .failed⟩
  /-- cargo-test-fuzz/src/lib.rs:788-790: an entry is skipped. -/
  | skip {fs : FS} {past : List Job} {d c : Path} {r : List (Path × Path)} {w : List Path} {seen : List Str} (n : Str)
    (hn : n ∉ seen) (hs : skipName n) :
    PStep fs ⟨past, none, .scan ((d, c) :: r) true seen w⟩ fs ⟨past, none, .scan ((d, c) :: r) true (n :: seen) w⟩
  /-- cargo-test-fuzz/src/lib.rs:792-797: an entry is read; its contents are to be recorded. -/
  | read {fs : FS} {past : List Job} {d c : Path} {r : List (Path × Path)} {w : List Path} {seen : List Str} (n : Str) (x : Bytes)
    (hn : n ∉ seen) (hs : skipName n = false) (h : fs (d ++ [n]) = some (.file x)) :
    PStep fs ⟨past, none, .scan ((d, c) :: r) true seen w⟩ fs ⟨past, some ((c, x), .begin), .scan ((d, c) :: r) true (n :: seen) w⟩
  /-- cargo-test-fuzz/src/lib.rs:792-794: it has vanished since it was listed, or is a directory. -/
  | unread {fs : FS} {past : List Job} {d c : Path} {r : List (Path × Path)} {w : List Path} {seen : List Str} (n : Str)
    (hs : skipName n = false) (h : ∀ x, fs (d ++ [n]) ≠ some (.file x)) :
    PStep fs ⟨past, none, .scan ((d, c) :: r) true seen w⟩ fs ⟨past, none, .failed⟩
  /-- There are no more entries. -/
  | next {fs : FS} {past : List Job} {d c : Path} {r : List (Path × Path)} {w : List Path} {seen : List Str}
    (h : ∀ n, (fs (d ++ [n])).isSome → n ∈ seen) :
    PStep fs ⟨past, none, .scan ((d, c) :: r) true seen w⟩ fs ⟨past, none, .scan r false [] w⟩
  /-- cargo-test-fuzz/src/lib.rs:821: `remove_dir_all` removes a file or an empty directory. -/
  | remove {fs : FS} {past : List Job} {p : Path} {w : List Path} (q : Path) (hp : p <+: q) (hq : (fs q).isSome)
    (hl : ∀ n, fs (q ++ [n]) = none) :
    PStep fs ⟨past, none, .scan [] false [] (p :: w)⟩ (fs.set q none) ⟨past, none, .scan [] false [] (p :: w)⟩
  /-- It has removed the directory, or there was none (cargo-test-fuzz/src/lib.rs:818-820). -/
  | removed {fs : FS} {past : List Job} {p : Path} {w : List Path} (h : fs p = none) :
    PStep fs ⟨past, none, .scan [] false [] (p :: w)⟩ fs ⟨past, none, .scan [] false [] w⟩
  /-- It fails, at any time: others may remove, or add, files at the same time. -/
  | unremoved {fs : FS} {past : List Job} {p : Path} {w : List Path} :
    PStep fs ⟨past, none, .scan [] false [] (p :: w)⟩ fs ⟨past, none, .failed⟩
  /-- A fuzzer adds a file. -/
  | find {fs : FS} {past : List Job} {q : Path} {x : Bytes} {r : List (Path × Bytes)} (hq : fs q = none) (hd : fs.isDir q.dropLast) :
    PStep fs ⟨past, none, .fuzz ((q, x) :: r)⟩ (fs.set q (some (.file x))) ⟨past, none, .fuzz r⟩

/-- What can be reached by any interleaving. -/
inductive Runs {ι : Type} [DecidableEq ι] (fs0 : FS) (ps0 : ι → Proc) : FS → (ι → Proc) → Prop where
  | initial : Runs fs0 ps0 fs0 ps0
  | step {fs fs' : FS} {ps : ι → Proc} {p : Proc} (i : ι) (h : Runs fs0 ps0 fs ps) (hs : PStep fs (ps i) fs' p) :
    Runs fs0 ps0 fs' (fun l => if l = i then p else ps l)

end TF.Par
