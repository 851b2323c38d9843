import Verif.Model.SerdeAttrs

/-!
# Serde attributes that make the derived `serialize` depend on values, or write a map: macro/src/lib.rs:914-925, 426-436

`skip_serializing_if = ".."`: whether the field is written depends on its value; `deserialize` reads it in any case. `flatten`: the
struct is written as a map the length of which is not given to the serializer (`serialize_map(None)`). Both are serde_derive's
(not part of the repository; modelled from its documentation, serde.rs/field-attrs.html and serde.rs/attr-flatten.html). Neither
postcard nor bincode can write a map of which it is not told the length: `to_io` and `encode_to_vec` return errors, which
internal/src/serde_format.rs:46, 52 unwrap.
-/

namespace TF

/-- Whether the field is written is asked of a function. -/
def omitsIf (attrs : List Str) : Bool := attrs.any fun a => (serdeNames a).contains c%"skip_serializing_if"

/-- The fields of the field are fields of the struct. -/
def flattens (attrs : List Str) : Bool := attrs.any fun a => (serdeNames a).contains c%"flatten"

/-- What the derived implementations call. -/
structure DeriveIf (A : Type) extends Derive A where
  /-- The function that `skip_serializing_if` names: is the field to be omitted? -/
  cond : List Str × Ty → Val A → Bool
  /-- What `deserialize` makes of a struct with `flatten`; not modelled. -/
  flatDe : List (List Str × Ty) → Bytes → Option (List (Val A))

section
variable {A : Type} (d : DeriveIf A)

/-- The field is not written for this value. -/
def DeriveIf.omits (t : List Str × Ty) (w : Val A) : Bool := skipsSer t.1 || (omitsIf t.1 && d.cond t w)

/-- The derived `serialize`: `serialize_field` or `skip_field` for each field. In both formats `skip_field` does nothing. -/
def DeriveIf.serAll : List (List Str × Ty) → List (Val A) → SVals
  | t :: l, w :: ws => if d.omits t w then serAll l ws else .cons (d.sd.ser t w) (serAll l ws)
  | _, _ => .nil

/-- The struct is written as a map (serde_derive's ser.rs, `serialize_struct`). -/
def writesMap (l : List (List Str × Ty)) : Bool := l.any fun t => flattens t.1 && !skipsSer t.1

/-- The struct is read as a map (serde_derive's de.rs, `has_flatten`). -/
def readsMap (l : List (List Str × Ty)) : Bool := l.any fun t => flattens t.1 && !skipsDe t.1

/-- `serialize::<Args>` and `deserialize::<Args>` (internal/src/serde_format.rs:33-70), for a format. -/
def DeriveIf.codec (enc : SVal → Bytes) (dec : Sch → Bytes → Option SVal) : Codec A where
  enc l ws := if writesMap l then .panic else .ok (enc (.tuple (d.serAll l ws)))
  dec l b := if readsMap l then d.flatDe l b else (d.toDerive.codec enc dec).dec l b

/-- The default format. -/
def DeriveIf.post (p : Policy) : Codec A := d.codec postSerialize (postDeserialize p)

/-- With the feature `serde_bincode`. -/
def DeriveIf.bin : Codec A := d.codec binSerialize binDeserialize

end

end TF
