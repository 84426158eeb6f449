import Mathlib.Data.Rat.Floor
import Verif.Model.ValuePreserving

/-!
# Broadcast and generator constructors with arithmetic values

A value is given by its type and the number it stands for (NaN and infinities are left out). A generator may return another type for
every index, since it is called with `std::integral_constant` objects.
-/

namespace Vir.Convert

/-- An arithmetic value. The values of `/repo/vir/simd.h` 1262-1276, 1573-1599. -/
structure TypedVal where
  ty : ArithTy
  val : ℚ

/-- `static_cast<T>(v)` between arithmetic types: `bool` tells whether the value is non-zero; integers wrap; a floating-point value is
truncated if it fits and undefined otherwise; conversions to floating point round. Simplification: what a rounding does with numbers
beyond the largest value is up to `rnd`. `/repo/vir/simd.h` 1263-1276, 1555, 1574-1599. -/
def castTo (rnd : FloatTy → ℚ → ℚ) (dst : ArithTy) (v : TypedVal) : Outcome ℚ :=
  match dst with
  | .bool => .ok (if v.val = 0 then 0 else 1)
  | .int t _ =>
    match v.ty with
    | .float _ _ =>
      let i := if 0 ≤ v.val then ⌊v.val⌋ else ⌈v.val⌉
      if t.Has i then .ok i else .ub .overflow
    | _ => .ok (t.conv v.val.num)
  | .float f _ => .ok (rnd f v.val)

/-- The elements of `data {static_cast<value_type>(init(SizeConstant<Is>()))...}` (`/repo/vir/simd.h` 1552-1556), `n` of them from index
`i` on. -/
def initLanes (rnd : FloatTy → ℚ → ℚ) (dst : ArithTy) (gen : Nat → TypedVal) : (n i : Nat) → Outcome (List ℚ)
  | 0, _ => .ok []
  | n + 1, i => do
    let x ← castTo rnd dst (gen i)
    let xs ← initLanes rnd dst gen n (i + 1)
    .ok (x :: xs)

/-- The generator constructor of a simd of `n` elements of type `dst` (`/repo/vir/simd.h` 1270-1276, 1593-1599). The constraint looks at the
type for index 0. `staticAssert`: no viable constructor. For one element the scalar ABI is the same, with an implicit conversion. -/
def generate (rnd : FloatTy → ℚ → ℚ) (dst : ArithTy) (n : Nat) (gen : Nat → TypedVal) : Outcome (List ℚ) :=
  if acceptsBroadcast rnd (gen 0).ty dst then initLanes rnd dst gen n 0 else .ub .staticAssert

/-- The broadcast constructor (`/repo/vir/simd.h` 1262-1267, 1573-1579): the value is converted once. -/
def broadcastVal (rnd : FloatTy → ℚ → ℚ) (dst : ArithTy) (n : Nat) (v : TypedVal) : Outcome (List ℚ) :=
  if acceptsBroadcast rnd v.ty dst then do
    let x ← castTo rnd dst v
    .ok (List.replicate n x)
  else .ub .staticAssert

end Vir.Convert
