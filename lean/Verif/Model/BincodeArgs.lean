import Verif.Model.Bincode
import Verif.Model.Format
import Verif.Model.PostcardArgs

/-!
# The struct `Args` with the feature `serde_bincode`
-/

namespace TF

section
variable {A : Type} (sd : Serde A)

/-- `serialize::<Args>` and `deserialize::<Args>` (internal/src/serde_format.rs:33-70) with bincode. -/
def binCodec : Codec A where
  enc l ws := .ok (binSerialize (.tuple (sd.serAll l ws)))
  dec l b :=
    match binDeserialize (.tuple (sd.schs l)) b with
    | some (.tuple vs) => sd.deAll l vs
    | _ => none

/-- What a build with these features writes with and reads with: the first block that is compiled in. `none`: it does not
compile. -/
def featureCodec (p : Policy) (f : Features) : Option (Codec A) := do
  let w ← serializeFormat f
  let r ← deserializeFormat f
  let codec : Format → Codec A := fun
    | .bincode => binCodec sd
    | .postcard => postCodec sd p
  some { enc := (codec w).enc, dec := (codec r).dec }

end

end TF
