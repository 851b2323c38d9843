import Verif.Model.Auto

/-!
# Floating-point numbers, as used by runtime/src/traits.rs

Binary formats of IEEE 754 with `p` bits of precision and largest exponent `emax` (`f32`: 24 and 127, `f64`: 53 and 1023). Finite
numbers are multiples of the least positive one, `2 ^ -(emax + p - 2)`: they are represented by a sign and this multiple. Operations
are those of the standard: the exact result, rounded to nearest, ties to even; there are no traps. The payloads of NaNs are not modelled.
-/

namespace TF

inductive Flt where
  | nan
  | inf (neg : Bool)
  | fin (neg : Bool) (mag : Nat)
  deriving DecidableEq

/-- Number of binary digits. -/
def bitLen (n : Nat) : Nat := if n = 0 then 0 else n.log2 + 1

/-- `n / d` rounded to `p` digits, with unbounded exponents. -/
def roundMag (p n d : Nat) : Nat :=
  let u := 2 ^ (bitLen (n / d) - p)
  let q := n / (d * u)
  let r := n % (d * u)
  (if 2 * r > d * u ∨ (2 * r = d * u ∧ q % 2 = 1) then q + 1 else q) * u

/-- `1.0` -/
def fltOne (p emax : Nat) : Nat := 2 ^ (emax + p - 2)

/-- `f32::MAX`, `f64::MAX`: all digits one, the largest exponent. -/
def fltTop (p emax : Nat) : Nat := (2 ^ p - 1) * 2 ^ (2 * emax - 1)

/-- A rounded result: infinite if it is too large. -/
def mkFlt (p emax : Nat) (neg : Bool) (n d : Nat) : Flt :=
  let k := roundMag p n d
  if k > fltTop p emax then .inf neg else .fin neg k

def Flt.neg : Flt → Flt
  | .nan => .nan
  | .inf s => .inf !s
  | .fin s k => .fin (!s) k

/-- `+`. A sum that is zero is positive unless both operands are negative. -/
def Flt.add (p emax : Nat) : Flt → Flt → Flt
  | .nan, _ => .nan
  | _, .nan => .nan
  | .inf s, .inf t => if s = t then .inf s else .nan
  | .inf s, .fin _ _ => .inf s
  | .fin _ _, .inf t => .inf t
  | .fin s a, .fin t b =>
    if s = t then mkFlt p emax s (a + b) 1
    else if a = b then .fin false 0
    else if a > b then mkFlt p emax s (a - b) 1
    else mkFlt p emax t (b - a) 1

/-- `-` -/
def Flt.sub (p emax : Nat) (x y : Flt) : Flt := x.add p emax y.neg

/-- `/` -/
def Flt.div (p emax : Nat) : Flt → Flt → Flt
  | .nan, _ => .nan
  | _, .nan => .nan
  | .inf _, .inf _ => .nan
  | .inf s, .fin t _ => .inf (s != t)
  | .fin s _, .inf t => .fin (s != t) 0
  | .fin s a, .fin t b =>
    if b = 0 then (if a = 0 then .nan else .inf (s != t))
    else mkFlt p emax (s != t) (a * fltOne p emax) b

/-- `f32`, `f64`: `Bounded` (num_traits: `MIN`, `MAX`), `Default`, `One`, and the operators, which do not panic. -/
def floatCaps (p emax : Nat) : Caps Flt :=
  { bounded := some (.fin true (fltTop p emax), .fin false (fltTop p emax))
    default_ := some (.fin false 0)
    one := some (.fin false (fltOne p emax))
    add := some fun a b => .ok (a.add p emax b)
    sub := some fun a b => .ok (a.sub p emax b)
    div := some fun a b => .ok (a.div p emax b) }

/-- The format of `f32`. -/
def f32Caps : Caps Flt := floatCaps 24 127

/-- The format of `f64`. -/
def f64Caps : Caps Flt := floatCaps 53 1023

end TF
