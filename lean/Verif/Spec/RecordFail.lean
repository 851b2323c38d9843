import Verif.Spec.Instrument

/-!
# Specification vocabulary for recordings that fail
-/

namespace TF.Spec

/-- Writing `data` to `dir` went wrong: there is a prefix of it, or what was there before; nothing else has changed. -/
def Damaged (dir : Path) (data : Bytes) (w w' : World) : Prop :=
  ∃ name : Str, hexDecode name = some (Sha1.digest data) ∧ ChangesOnly (dir ++ [name]) w.fs w'.fs ∧
    ((∃ k, HasFile w'.fs (dir ++ [name]) (data.take k)) ∨ w'.fs (dir ++ [name]) = w.fs (dir ++ [name]))

/-- Something to be recorded: where and what; either may not be there. -/
structure RecItem where
  kind : RecKind
  dir : Out Path
  data : Out Bytes

/-- What a call has to record, in order. -/
def recItems {V : Type} (c : Setting) (t : Target V) (v : V) : List RecItem :=
  [⟨.implGenericArgs, implGenericArgsDirFromArgsType c.ctx t.typeName, .ok (utf8Encode (joinWith c%", " (t.implTypes v)))⟩,
    ⟨.genericArgs, genericArgsDirFromArgsType c.ctx t.typeName, .ok (utf8Encode (joinWith c%", " (t.types v)))⟩] ++
  if t.macro_.onlyGenericArgs then [] else [⟨.args, corpusDirFromArgsType c.ctx t.typeName, t.ser v⟩]

/-- Recording of recItems one after another, up to the end or to the first that cannot be recorded; `write` tells what writing does. -/
inductive Recording (write : Path → Bytes → World → World → Prop) : List RecItem → World → World → Option RecKind → Prop
  | done (w : World) : Recording write [] w w none
  | stored {k : RecKind} {d : Path} {b : Bytes} {l : List RecItem} {w w1 w' : World} {f : Option RecKind} : Stored d b w w1 →
      write d b w w1 → Recording write l w1 w' f → Recording write (⟨k, .ok d, .ok b⟩ :: l) w w' f
  | damaged {k : RecKind} {d : Path} {b : Bytes} {l : List RecItem} {w w' : World} : Damaged d b w w' → write d b w w' →
      Recording write (⟨k, .ok d, .ok b⟩ :: l) w w' (some k)
  | missing {k : RecKind} {d : Out Path} {b : Out Bytes} {l : List RecItem} {w : World} : (∀ d' b', d = .ok d' → b ≠ .ok b') →
      Recording write (⟨k, d, b⟩ :: l) w w (some k)

/-- What recording `b` in `d` comes to: all of it is stored, or it panics, or the process is killed. -/
def StoredOrPanics (pl : Plan) (d : Path) (b : Bytes) (r : Out Unit × World) : Prop :=
  (r.1 = .ok () ∧ ∃ name, HasFile r.2.fs (d ++ [name]) b) ∨ r.1 = .panic ∨ (r.1 = .crash ∧ ∃ n q, pl n = .crash q)

end TF.Spec
