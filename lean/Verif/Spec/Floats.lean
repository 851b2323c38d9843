import Verif.Model.Floats

/-!
# Specification vocabulary for floating-point numbers

A number is a multiple of the least positive one.
-/

namespace TF.Spec

/-- Distance of natural numbers. -/
def gap (a b : Nat) : Nat := (a - b) + (b - a)

/-- Numbers with `p` binary digits, of any size. -/
def Digits (p k : Nat) : Prop := ∃ m j, m < 2 ^ p ∧ k = m * 2 ^ j

/-- `k` is what `n / d` is rounded to: nearest, and even if another number is as near. -/
structure Rounded (p n d k : Nat) : Prop where
  digits : Digits p k
  nearest : ∀ k', Digits p k' → gap n (k * d) ≤ gap n (k' * d)
  even : ∀ k', Digits p k' → k' ≠ k → gap n (k' * d) = gap n (k * d) → 2 * gap k k' ∣ k

/-- The numbers of the format with `p` digits: `max` is the largest, of magnitude just below `2 ^ (emax + 1)`, in units of which `one`
make `1.0`. -/
structure IsFormat (p emax one max : Nat) : Prop where
  /-- the least positive number is `2 ^ (1 - emax)` divided by `2 ^ (p - 1)` -/
  one_eq : 2 * 2 * one = 2 ^ emax * 2 ^ p
  digits : Digits p max
  /-- the largest number below `2 ^ (emax + 1)` -/
  below : max < one * 2 ^ (emax + 1)
  largest : ∀ k, Digits p k → k < one * 2 ^ (emax + 1) → k ≤ max

end TF.Spec
