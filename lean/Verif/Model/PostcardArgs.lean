import Verif.Model.Args
import Verif.Model.Postcard

/-!
# The struct `Args` in the default format

macro/src/lib.rs:500-560 derives `Deserialize` and `Serialize` for `Args`: its fields are written one after the other, each
with the `Serialize` implementation of its type or the function that its serde attributes name.
-/

namespace TF

/-- `Serialize` and `Deserialize` for the field types of `Args`: library and user code. Types come with the serde
attributes of the field. -/
structure Serde (A : Type) where
  sch : List Str × Ty → Sch
  ser : List Str × Ty → Val A → SVal
  /-- Can fail: user code may reject data. -/
  de : List Str × Ty → SVal → Option (Val A)

section
variable {A : Type} (sd : Serde A)

def Serde.schs : List (List Str × Ty) → Schs
  | [] => .nil
  | t :: l => .cons (sd.sch t) (schs l)

def Serde.serAll : List (List Str × Ty) → List (Val A) → SVals
  | t :: l, w :: ws => .cons (sd.ser t w) (serAll l ws)
  | _, _ => .nil

def Serde.deAll : List (List Str × Ty) → SVals → Option (List (Val A))
  | [], .nil => some []
  | t :: l, .cons v vs => do
    let w ← sd.de t v
    let ws ← deAll l vs
    some (w :: ws)
  | _, _ => none

/-- `serialize::<Args>` and `deserialize::<Args>` (internal/src/serde_format.rs:33-70), default format. -/
def postCodec (p : Policy) : Codec A where
  enc l ws := .ok (postSerialize (.tuple (sd.serAll l ws)))
  dec l b :=
    match postDeserialize p (.tuple (sd.schs l)) b with
    | some (.tuple vs) => sd.deAll l vs
    | _ => none

end

end TF
