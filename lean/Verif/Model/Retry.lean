import Verif.Rust.Basic

/-!
# testing/src/retry.rs
-/

namespace TF

/-- testing/src/retry.rs:12-27: the loop, from the `i`-th call on with `k + 1` calls left; `op i` is the result of the
`i`-th call (`Except.error` for `Err`). Returns the number of calls made and the result. -/
def retryLoop {T E : Type} (op : Nat → Except E T) (n : Nat) : Nat → Nat → Out (Nat × Except E T)
  | _, 0 => .panic
  | i, k + 1 =>
    match op i with
    | .ok v => .ok (i, .ok v)
    | .error e => if i < n then retryLoop op n (i + 1) k else .ok (i, .error e)

/-- testing/src/retry.rs:4-30 `retry`; messages are not modelled. Calls are numbered from 1. -/
def retry {T E : Type} (n : Nat) (op : Nat → Except E T) : Out (Nat × Except E T) := do
  assert (decide (n ≥ 1))
  retryLoop op n 1 n

end TF
