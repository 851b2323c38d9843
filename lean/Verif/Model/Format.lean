import Verif.Rust.Basic

/-!
# Choice of the serialisation format: internal/src/serde_format.rs, internal/build.rs
-/

namespace TF

/-- Features of the crate `test-fuzz-internal` that are enabled. -/
structure Features where
  bincode : Bool
  postcard : Bool
  deriving DecidableEq

inductive Format where
  | bincode | postcard
  deriving DecidableEq

/-- internal/build.rs:1-4: whether `serde_default` is set. -/
def serdeDefault (f : Features) : Bool := !(f.bincode || f.postcard)

/-- internal/src/serde_format.rs:14-31 `as_feature`. -/
def asFeature (f : Features) : Out Str := do
  let formats : List Str := []
  let formats := if f.bincode then formats ++ [c%"serde_bincode"] else formats
  let formats := if serdeDefault f || f.postcard then formats ++ [c%"serde_postcard"] else formats
  assert (decide (formats.length ≤ 1))
  match formats.getLast? with
  | some x => .ok x
  | none => .panic

/-- internal/src/serde_format.rs:33-54 `serialize`: the first block compiled in returns; `none`: no block, which does not
compile. -/
def serializeFormat (f : Features) : Option Format :=
  if f.bincode then some .bincode else if serdeDefault f || f.postcard then some .postcard else none

/-- internal/src/serde_format.rs:56-70 `deserialize`. -/
def deserializeFormat (f : Features) : Option Format :=
  if f.bincode then some .bincode else if serdeDefault f || f.postcard then some .postcard else none

end TF
