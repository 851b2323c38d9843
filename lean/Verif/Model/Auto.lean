import Verif.Rust.Basic

/-!
# Auto-generated values: runtime/src/traits.rs, runtime/src/lib.rs:67-118, macro/src/lib.rs:1135-1166
-/

namespace TF

/-- What a type offers; `none`: the type does not implement the trait. The operators may panic. -/
structure Caps (α : Type) where
  /-- `Bounded`: `min_value`, `max_value` -/
  bounded : Option (α × α)
  /-- `Default` -/
  default_ : Option α
  /-- `One` -/
  one : Option α
  /-- `Add<Output = Self>` -/
  add : Option (α → α → Out α)
  /-- `Sub<Output = Self>` -/
  sub : Option (α → α → Out α)
  /-- `Div<Output = Self>` -/
  div : Option (α → α → Out α)

section
variable {α : Type}

/-- runtime/src/traits.rs:4-15 `MinValueAddOne`. -/
def minValueAddOne (c : Caps α) : Option (Out α) :=
  match c.add, c.bounded, c.one with
  | some add, some (min, _), some one => some (add min one)
  | _, _, _ => none

/-- runtime/src/traits.rs:17-28 `MaxValueSubOne`. -/
def maxValueSubOne (c : Caps α) : Option (Out α) :=
  match c.sub, c.bounded, c.one with
  | some sub, some (_, max), some one => some (sub max one)
  | _, _, _ => none

/-- runtime/src/traits.rs:30-41 `Two`. -/
def two (c : Caps α) : Option (Out α) :=
  match c.add, c.one with
  | some add, some one => some (add one one)
  | _, _ => none

/-- runtime/src/traits.rs:51-53 `Middle::low`. -/
def low (add div : α → α → Out α) (min max : α) (two : Out α) : Out α := do
  let t ← two
  let a ← div min t
  let t ← two
  let b ← div max t
  add a b

/-- runtime/src/traits.rs:43-58 `Middle`: the two values. -/
def middle (c : Caps α) : Option (Out (List α)) :=
  match c.add, c.div, c.bounded, c.one, two c with
  | some add, some div, some (min, max), some one, some two => some (do
      let l ← low add div min max two
      let l' ← low add div min max two
      let h ← add l' one
      .ok [l, h])
  | _, _, _, _, _ => none

/-- runtime/src/lib.rs:67-92 `auto_impl!`: the values if the type implements the trait, else none. -/
def autoImpl (x : Option (Out (List α))) : Out (List α) := x.getD (.ok [])

/-- runtime/src/lib.rs:94-118 `auto!`. -/
def auto (c : Caps α) : Out (List α) := do
  let a ← autoImpl (c.bounded.map fun b => .ok [b.1, b.2])
  let b ← autoImpl (c.default_.map fun d => .ok [d])
  let c1 ← autoImpl ((maxValueSubOne c).map fun x => do let x ← x; .ok [x])
  let d ← autoImpl (middle c)
  let e ← autoImpl ((minValueAddOne c).map fun x => do let x ← x; .ok [x])
  .ok (a ++ b ++ c1 ++ d ++ e)

/-- `l[i]`: panics out of bounds. -/
def index (l : List α) (i : Nat) : Out α :=
  match l[i]? with
  | some x => .ok x
  | none => .panic

/-- `a % b`: panics if `b` is zero. -/
def rem (a b : Nat) : Out Nat := if b = 0 then .panic else .ok (a % b)

/-- macro/src/lib.rs:1146-1154: the fields of the `i`-th tuple, from the `j`-th on. -/
def autoFields (lens : List Nat) (i : Nat) : Nat → List (List α) → Out (List α)
  | _, [] => .ok []
  | j, l :: rest => do
    let n ← index lens j
    let k ← rem (i + j) n
    let x ← index l k
    let xs ← autoFields lens i (j + 1) rest
    .ok (x :: xs)

/-- The tuples for the indices `i`, ..., `i + n - 1`. -/
def autoTuples (autos : List (List α)) (lens : List Nat) : Nat → Nat → Out (List (List α))
  | _, 0 => .ok []
  | i, n + 1 => do
    let t ← autoFields lens i 0 autos
    let ts ← autoTuples autos lens (i + 1) n
    .ok (t :: ts)

/-- macro/src/lib.rs:1135-1166 `args_from_autos`: the generated expression. The lists have different element types in the
code, here one. Indices are unbounded here; in the code they are `usize`, and `i + #i` is at most the length of a list
plus the number of arguments. -/
def argsFromAutos (autos : List (List α)) : Out (List (List α)) :=
  let lens := autos.map List.length
  let max := if lens.min?.getD 1 > 0 then lens.max?.getD 1 else 0
  autoTuples autos lens 0 max

end

/-- A primitive integer type of `bits` bits; arithmetic is checked for overflow. Division truncates. -/
def intCaps (signed : Bool) (bits : Nat) : Caps Int :=
  let min : Int := if signed then -(2 ^ (bits - 1) : Nat) else 0
  let max : Int := if signed then (2 ^ (bits - 1) : Nat) - 1 else (2 ^ bits : Nat) - 1
  let check (x : Int) : Out Int := if min ≤ x ∧ x ≤ max then .ok x else .panic
  { bounded := some (min, max)
    default_ := some 0
    one := some 1
    add := some fun a b => check (a + b)
    sub := some fun a b => check (a - b)
    div := some fun a b => if b = 0 then .panic else check (a.tdiv b) }

end TF
