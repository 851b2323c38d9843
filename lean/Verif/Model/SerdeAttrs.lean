import Verif.Model.BincodeArgs

/-!
# Serde attributes on arguments: macro/src/lib.rs:914-925, 426-436, 664-689

`map_arg` moves the attributes of an argument to its field of `Args`, for which `Serialize` and `Deserialize` are derived
(serde_derive, whose source is not part of the repository; modelled from its documentation, serde.rs/field-attrs.html). In the
model an attribute is the text between `#[` and `]`.

Of the attributes, `skip`, `skip_serializing`, `skip_deserializing` and `default` are modelled here. Those that name functions
(`with` and so on) are the business of `Serde`, as before. `rename` and `alias` concern names, which neither format writes.
`flatten` and `skip_serializing_if` are in Model/SerdeOmit.lean. Not modelled: names that differ for the two directions.
-/

namespace TF

/-- The items of a list of the form `a, b = "..", ..`: split at commas that are not in a string. -/
def splitItems : Bool → Str → List Str
  | _, [] => [[]]
  | true, '\\' :: c :: r =>
    match splitItems true r with
    | w :: ws => ('\\' :: c :: w) :: ws
    | [] => [['\\', c]]
  | q, c :: r =>
    if c = '"' then
      match splitItems (!q) r with
      | w :: ws => (c :: w) :: ws
      | [] => [[c]]
    else if c = ',' ∧ q = false then [] :: splitItems false r
    else
      match splitItems q r with
      | w :: ws => (c :: w) :: ws
      | [] => [[c]]

/-- The name that an item begins with. -/
def itemName (s : Str) : Str := (s.dropWhile (· = ' ')).takeWhile fun c => c.isAlphanum || c = '_'

/-- The names in an attribute, if it is one of serde's: `serde(..)`. -/
def serdeNames (attr : Str) : List Str :=
  if attr.take 6 = c%"serde(" ∧ attr.getLast? = some ')' then (splitItems false (attr.drop 6).dropLast).map itemName else []

/-- The field is not written. -/
def skipsSer (attrs : List Str) : Bool :=
  attrs.any fun a => (serdeNames a).contains c%"skip" || (serdeNames a).contains c%"skip_serializing"

/-- The field is not read. -/
def skipsDe (attrs : List Str) : Bool :=
  attrs.any fun a => (serdeNames a).contains c%"skip" || (serdeNames a).contains c%"skip_deserializing"

/-- What the derived implementations call. -/
structure Derive (A : Type) where
  sd : Serde A
  /-- `Default::default()`, or the function that `default = ".."` names. -/
  dflt : List Str × Ty → Val A

section
variable {A : Type} (d : Derive A)

/-- What the derived `deserialize` asks for: `FIELDS` has no fields that are not read. -/
def Derive.schs : List (List Str × Ty) → Schs
  | [] => .nil
  | t :: l => if skipsDe t.1 then schs l else .cons (d.sd.sch t) (schs l)

/-- The derived `serialize`: `serialize_field` for each field that is to be written. -/
def Derive.serAll : List (List Str × Ty) → List (Val A) → SVals
  | t :: l, w :: ws => if skipsSer t.1 then serAll l ws else .cons (d.sd.ser t w) (serAll l ws)
  | _, _ => .nil

/-- The derived `visit_seq`: `next_element` for each field that is to be read, a default for each other. -/
def Derive.deAll : List (List Str × Ty) → SVals → Option (List (Val A))
  | [], .nil => some []
  | [], .cons .. => none
  | t :: l, vs =>
    if skipsDe t.1 then do
      let ws ← deAll l vs
      some (d.dflt t :: ws)
    else
      match vs with
      | .nil => none
      | .cons v vs => do
        let w ← d.sd.de t v
        let ws ← deAll l vs
        some (w :: ws)

/-- `serialize::<Args>` and `deserialize::<Args>` (internal/src/serde_format.rs:33-70), for a format. -/
def Derive.codec (enc : SVal → Bytes) (dec : Sch → Bytes → Option SVal) : Codec A where
  enc l ws := .ok (enc (.tuple (d.serAll l ws)))
  dec l b :=
    match dec (.tuple (d.schs l)) b with
    | some (.tuple vs) => d.deAll l vs
    | _ => none

/-- The default format. -/
def Derive.post (p : Policy) : Codec A := d.codec postSerialize (postDeserialize p)

/-- With the feature `serde_bincode`. -/
def Derive.bin : Codec A := d.codec binSerialize binDeserialize

end

end TF
