import Verif.Model.Sha1

/-!
# Concurrent `write_data`

Interleaving semantics of runtime/src/lib.rs:196 (`std::fs::write(path, data)`) executed by several
threads or processes into one directory: each writer opens its file with create+truncate and then
issues positioned writes of arbitrary sizes until everything is written. The directory exists already
(`create_dir_all` of an existing directory has no effect).
-/

namespace TF.Conc

/-- Shared state: the files of the directory by name, and for each writer the number of bytes it has
written (`none`: it has not opened its file). -/
structure State (ι : Type) where
  files : Str → Option Bytes
  pos : ι → Option Nat

/-- POSIX `write` of `chunk` at offset `p`: a gap after the end of the file reads as zeros. -/
def overwrite (c : Bytes) (p : Nat) (chunk : Bytes) : Bytes :=
  (c ++ List.replicate (p - c.length) 0).take p ++ chunk ++ c.drop (p + chunk.length)

/-- One step of one writer: `openTrunc` creates or truncates its file; `write` writes the next `k`
bytes of its data at its own offset. -/
inductive Step {ι : Type} [DecidableEq ι] (data : ι → Bytes) : State ι → State ι → Prop where
  | openTrunc (s : State ι) (i : ι) (h : s.pos i = none) :
      Step data s
        { files := fun n => if n = fileName (data i) then some [] else s.files n
          pos := fun j => if j = i then some 0 else s.pos j }
  | write (s : State ι) (i : ι) (p k : Nat) (h : s.pos i = some p) (hk : p + k ≤ (data i).length) :
      Step data s
        { files := fun n =>
            if n = fileName (data i) then
              some (overwrite ((s.files n).getD []) p (((data i).drop p).take k))
            else s.files n
          pos := fun j => if j = i then some (p + k) else s.pos j }

/-- Any number of steps. -/
inductive Steps {ι : Type} [DecidableEq ι] (data : ι → Bytes) : State ι → State ι → Prop where
  | refl (s : State ι) : Steps data s s
  | tail {s t u : State ι} : Steps data s t → Step data t u → Steps data s u

end TF.Conc
