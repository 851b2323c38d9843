import Verif.Model.Bounds

/-!
# What conversions need: macro/src/lib.rs:264-277, 926-951, test-fuzz/src/convert.rs

An argument whose type is named by the option `convert` is recorded by `FromRef` and read back by `Into`. These traits have an
argument: that `Y` has `FromRef<X>` is modelled as a trait of the pair of `Y` and `X`.
-/

namespace TF

def tFrom : Str := c%"core::convert::From"
def tFromRef : Str := c%"test_fuzz::FromRef"
def tInto : Str := c%"test_fuzz::Into"

/-- The subject of `y: Trait<x>`. -/
def pairTy (y x : STy) : STy := .app (.app (.con c%"(Self, T)") y) x

/-- test-fuzz/src/convert.rs:5-9: `impl<T, U> FromRef<T> for U where T: Clone, U: From<T>`. -/
def fromRefImpl : ImplRule :=
  ⟨pairTy (.param c%"U") (.param c%"T"), tFromRef, [(.param c%"T", tClone), (pairTy (.param c%"U") (.param c%"T"), tFrom)]⟩

/-- An argument of a target: recorded by `clone`, or converted from `x` to `y`. -/
inductive CArg where
  | plain (t : STy)
  | conv (x y : STy)
  deriving DecidableEq

/-- The type of its field: macro/src/lib.rs:937, 946, 962. -/
def CArg.field : CArg → STy
  | .plain t => t
  | .conv _ y => y

/-- The target with these arguments. -/
def GenTarget.withArgs (g : GenTarget) (as : List CArg) : GenTarget := { g with fields := as.map CArg.field }

/-- The compiler accepts the generated code. (`g.fields` plays no role.) -/
structure CompilesConv (w : Traits) (g : GenTarget) (as : List CArg) : Prop where
  /-- What is needed in any case. Fields are cloned by `Args::auto_generate`: macro/src/lib.rs:728, 1153. That function is there
  even with the option `no_auto_generate`. -/
  base : Compiles w (g.withArgs as)
  /-- `<Y as test_fuzz::FromRef::<X>>::from_ref(&x)`, in the function: 508, 938. -/
  recorded : ∀ x y, .conv x y ∈ as → Holds w g.known (pairTy y x) tFromRef
  /-- `<_ as test_fuzz::Into::<_>>::into(args.x)`, in `Args::entry`, for what was read with the user's arguments: 554, 592, 598, 939. -/
  passed : ∀ x y, .conv x y ∈ as → Holds w g.known ((pairTy y x).subst g.args) tInto

end TF
