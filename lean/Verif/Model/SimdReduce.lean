import Verif.Model.SimdSplit
import Verif.Model.BitUtils
import Verif.Model.MaskReductions

/-!
# Horizontal reductions of the fallback `simd` (`/repo/vir/simd.h` 2278-2405)
-/

namespace Vir.Simd

variable {α : Type}

/-- `reduce(const simd&, binary_op)` (`/repo/vir/simd.h` 2279-2307). `vop` is `binary_op` applied to simd arguments, `op`
is `binary_op` applied to scalars. `fuel` bounds the depth of the template recursion. -/
def reduceF (vop : List α → List α → Outcome (List α)) (op : α → α → α) : Nat → List α → Outcome α
  | 0, _ => .ub .diverge
  | fuel + 1, v =>
    let n := v.length
    if n > 3 then do
      let n2 ← BitUtils.bitFloor (n / 2)
      let nRem := n - 2 * n2
      if nRem > 0 then
        match ← splitSizes [n2, n2, nRem] v with
        | [l, r, rem] => do
          let a ← reduceF vop op fuel (← vop l r)
          let b ← reduceF vop op fuel rem
          .ok (op a b)
        | _ => .ub .staticAssert
      else
        match ← splitSizes [n2, n2] v with
        | [l, r] => do reduceF vop op fuel (← vop l r)
        | _ => .ub .staticAssert
    else do
      let r ← at' v 0
      forUp (fun i r => do .ok (op r (← at' v i))) (n - 1) 1 r

@[inherit_doc reduceF]
def reduceV (vop : List α → List α → Outcome (List α)) (op : α → α → α) (v : List α) : Outcome α := reduceF vop op v.length v

/-- `reduce(const_where_expression, identity_element, binary_op)` (`/repo/vir/simd.h` 2309-2325). -/
def reduceMasked (k : List Bool) (v : List α) (identity : α) (op : α → α → α) : Outcome α := do
  if ← anyOf k then
    forUp (fun i r => do if ← at' k i then .ok (op r (← at' v i)) else .ok r) v.length 0 identity
  else .ok identity

/-- `std::min(a, b)`: `(b < a) ? b : a`. `/repo/vir/simd.h` 2408-2411. -/
def stdMin (lt : α → α → Bool) (a b : α) : α := if lt b a then b else a

/-- `std::max(a, b)`: `(a < b) ? b : a`. `/repo/vir/simd.h` 2413-2416. -/
def stdMax (lt : α → α → Bool) (a b : α) : α := if lt a b then b else a

/-- `std::clamp(v, lo, hi)`: undefined if `hi < lo`, else `v < lo ? lo : hi < v ? hi : v`. `/repo/vir/simd.h` 2424-2428. -/
def stdClamp (lt : α → α → Bool) (v lo hi : α) : Outcome α :=
  if lt hi lo then .ub .unreachable else .ok (if lt v lo then lo else if lt hi v then hi else v)

/-- `min(simd, simd)` (`/repo/vir/simd.h` 2408-2411). -/
def minV (lt : α → α → Bool) (a b : List α) : Outcome (List α) :=
  gen a.length fun i => do .ok (stdMin lt (← at' a i) (← at' b i))

/-- `max(simd, simd)` (`/repo/vir/simd.h` 2413-2416). -/
def maxV (lt : α → α → Bool) (a b : List α) : Outcome (List α) :=
  gen a.length fun i => do .ok (stdMax lt (← at' a i) (← at' b i))

/-- `minmax(simd, simd)` (`/repo/vir/simd.h` 2418-2422). -/
def minmaxV (lt : α → α → Bool) (a b : List α) : Outcome (List α × List α) := do
  .ok (← minV lt a b, ← maxV lt a b)

/-- `clamp(simd, simd, simd)` (`/repo/vir/simd.h` 2424-2428). -/
def clampV (lt : α → α → Bool) (v lo hi : List α) : Outcome (List α) :=
  gen v.length fun i => do stdClamp lt (← at' v i) (← at' lo i) (← at' hi i)

/-- `hmin(const simd&)` (`/repo/vir/simd.h` 2352-2360); `min` of two simd objects is `minV` by argument-dependent lookup. -/
def hmin (lt : α → α → Bool) (v : List α) : Outcome α := reduceV (minV lt) (stdMin lt) v

/-- `hmax(const simd&)` (`/repo/vir/simd.h` 2362-2370). -/
def hmax (lt : α → α → Bool) (v : List α) : Outcome α := reduceV (maxV lt) (stdMax lt) v

/-- `hmin(const_where_expression)` (`/repo/vir/simd.h` 2372-2387); `idElem` is `numeric_limits<T>::max()` on compilers that
define `__FINITE_MATH_ONLY__` (GCC and Clang always do). -/
def hminMasked (lt : α → α → Bool) (idElem : α) (k : List Bool) (v : List α) : Outcome α :=
  reduceMasked k v idElem (stdMin lt)

/-- `hmax(const_where_expression)` (`/repo/vir/simd.h` 2389-2405); `idElem` is `numeric_limits<T>::lowest()` on compilers
that define `__FINITE_MATH_ONLY__`. -/
def hmaxMasked (lt : α → α → Bool) (idElem : α) (k : List Bool) (v : List α) : Outcome α :=
  reduceMasked k v idElem (stdMax lt)

end Vir.Simd
