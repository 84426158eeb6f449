import Verif.Model.SimdReduce
import Verif.Model.SimdOps

/-!
# Reductions of integer simds with the standard function objects (`/repo/vir/simd.h` 2278-2350)

The function objects `std::plus<>`, `std::multiplies<>`, `std::bit_and<>`, `std::bit_or<>` and `std::bit_xor<>` apply the built-in
operator to their arguments. Applied to scalars of a type narrower than `int` they return an `int`, which is converted back where it is
assigned to or returned as the element type. Simplification: the two scalar conversions in a row of `return binary_op(...)` are one.
-/

namespace Vir.Simd

/-- The function objects with a default identity element, `/repo/vir/simd.h` 2327-2350. -/
inductive RedOp where
  | plus | multiplies | bitAnd | bitOr | bitXor
deriving DecidableEq, Repr

/-- The operator the function object applies, `/repo/vir/simd.h` 2327-2350. -/
def RedOp.binOp : RedOp → BinOp
  | .plus => .add
  | .multiplies => .mul
  | .bitAnd => .and
  | .bitOr => .or
  | .bitXor => .xor

/-- The `identity_element` the overloads of `reduce` for where expressions pass on, converted to the element type `t`: `0`, `1`,
`~typename V::value_type()`, `0` and `0` (`/repo/vir/simd.h` 2330, 2335, 2340, 2345, 2350). -/
def RedOp.identity (t : IntTy) : RedOp → Outcome Int
  | .plus => .ok (t.conv 0)
  | .multiplies => .ok (t.conv 1)
  | .bitAnd => UnOp.eval t .compl 0
  | .bitOr => .ok (t.conv 0)
  | .bitXor => .ok (t.conv 0)

/-- `reduce(const simd&, binary_op)` (`/repo/vir/simd.h` 2279-2307) for a simd with elements of type `t` and an operator: `binary_op` of
simd arguments is the operator of simd, of scalars the built-in one. `fuel` bounds the depth of the template recursion. -/
def reduceIntF (t : IntTy) (op : BinOp) : Nat → List Int → Outcome Int
  | 0, _ => .ub .diverge
  | fuel + 1, v =>
    let n := v.length
    if n > 3 then do
      let n2 ← BitUtils.bitFloor (n / 2)
      let nRem := n - 2 * n2
      if nRem > 0 then
        match ← splitSizes [n2, n2, nRem] v with
        | [l, r, rem] => do
          let a ← reduceIntF t op fuel (← binary t op l r)
          let b ← reduceIntF t op fuel rem
          op.eval t a b
        | _ => .ub .staticAssert
      else
        match ← splitSizes [n2, n2] v with
        | [l, r] => do reduceIntF t op fuel (← binary t op l r)
        | _ => .ub .staticAssert
    else do
      let r ← at' v 0
      forUp (fun i r => do op.eval t r (← at' v i)) (n - 1) 1 r

@[inherit_doc reduceIntF]
def reduceInt (t : IntTy) (o : RedOp) (v : List Int) : Outcome Int := reduceIntF t o.binOp v.length v

/-- `reduce(const_where_expression, identity_element, binary_op)` (`/repo/vir/simd.h` 2309-2325) for elements of type `t` and an operator:
`r = binary_op(r, v[i])` for the selected lanes. -/
def reduceMaskedInt (t : IntTy) (op : BinOp) (k : List Bool) (v : List Int) (identity : Int) : Outcome Int := do
  if ← anyOf k then
    forUp (fun i r => do if ← at' k i then op.eval t r (← at' v i) else .ok r) v.length 0 identity
  else .ok identity

/-- `reduce(const_where_expression, binary_op)` for the function objects with a default identity element (`/repo/vir/simd.h` 2327-2350). -/
def reduceMaskedDefault (t : IntTy) (o : RedOp) (k : List Bool) (v : List Int) : Outcome Int := do
  reduceMaskedInt t o.binOp k v (← o.identity t)

end Vir.Simd
