import Verif.Rust.Str

/-!
# Text shown for values whose type has no `Debug`: runtime/src/lib.rs:25-61

`TryDebug<X>` has an inherent method `apply` if `X: Debug`; otherwise method resolution finds the one of
`TryDebugFallback`, implemented for every type, here for `TryDebug<X>` itself. That choice is the compiler's and is
not modelled: what is modelled is the text of the fallback.
-/

namespace TF

/-- `std::any::type_name` of `TryDebug<X>`, where `t` is that of `X`. The lifetime is not printed. -/
def tryDebugName (t : Str) : Str := c%"test_fuzz_runtime::TryDebug<" ++ t ++ c%">"

/-- runtime/src/lib.rs:34 `PAT`. -/
def pat : Str := c%"TryDebug<"

/-- runtime/src/lib.rs:33-42 `DebugUnimplemented::fmt`. -/
def debugUnimplemented (typeName : Str) : Out Str :=
  match find pat typeName with
  | none => .panic
  | some n =>
    match stripSuffix c%">" (typeName.drop (n + pat.length)) with
    | none => .panic
    | some s => .ok (c%"<unknown of type " ++ s ++ c%">")

end TF
