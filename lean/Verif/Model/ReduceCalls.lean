import Verif.Model.ReduceEffects
import Verif.Model.SimdReduce

/-!
# The horizontal `reduce` of the fallback `simd` with an operation that has side effects and may throw

`Verif/Model/SimdReduce.lean` (`/repo/vir/simd.h` 2278-2331) for pure operations; here every call of `binary_op` reads and changes an
external state and may throw. `reduce` catches nothing. `transform_reduce` (`Verif/Model/ReduceEffects.lean`) takes the horizontal
reduction as one operation; `COps.toROps` supplies the one below, so that all calls of the user's `reduce_op` become visible.
-/

namespace Vir

/-- The user's operations. `transform_op` returns simds of the aggregation type. The call operator of `reduce_op` is a template (or
overloaded): it is called with two simds and with two values. The callables of `/repo/vir/simd.h` 2278-2330, `/repo/vir/simd_execution.h` 939-943. -/
structure COps (σ α τ : Type) where
  /-- `transform_op` -/
  trans : σ → List (List α) → σ × Option (List τ)
  /-- `reduce_op` on two simds -/
  vec : σ → List τ → List τ → σ × Option (List τ)
  /-- `reduce_op` on two values -/
  val : σ → τ → τ → σ × Option τ
  transShape : ∀ s w args r, args ≠ [] → (∀ a ∈ args, a.length = w) → (trans s args).2 = some r → r.length = w
  vecShape : ∀ s x y r, x.length = y.length → (vec s x y).2 = some r → r.length = x.length

namespace Simd
open Eff

variable {σ α τ : Type}

/-- `for (i = 1; i < N; ++i) r = binary_op(r, v[i]);` (`/repo/vir/simd.h` 2303-2305): `m` iterations from index `i` on. -/
def reduceLoopE (ops : COps σ α τ) (v : List τ) : Nat → Nat → τ → Eff σ τ
  | 0, _, r => pure r
  | m + 1, i, r => do
    let x ← lift (at' v i)
    let r ← invoke fun s => ops.val s r x
    reduceLoopE ops v m (i + 1) r

/-- `reduce(const simd&, binary_op)` (`/repo/vir/simd.h` 2279-2307). The order of the two arguments in
`binary_op(reduce(binary_op(l, r), binary_op), reduce(rem, binary_op))` is up to the compiler: `rev N` says whether the second one comes
first for width `N`. `fuel` bounds the depth of the template recursion. -/
def reduceE (ops : COps σ α τ) (rev : Nat → Bool) : Nat → List τ → Eff σ τ
  | 0, _ => lift (.ub .diverge)
  | fuel + 1, v =>
    let n := v.length
    if n > 3 then do
      let n2 ← lift (BitUtils.bitFloor (n / 2))
      let nRem := n - 2 * n2
      if nRem > 0 then do
        let parts ← lift (splitSizes [n2, n2, nRem] v)
        match parts with
        | [l, r, rem] =>
          if rev n then do
            let b ← reduceE ops rev fuel rem
            let x ← invoke fun s => ops.vec s l r
            let a ← reduceE ops rev fuel x
            invoke fun s => ops.val s a b
          else do
            let x ← invoke fun s => ops.vec s l r
            let a ← reduceE ops rev fuel x
            let b ← reduceE ops rev fuel rem
            invoke fun s => ops.val s a b
        | _ => lift (.ub .staticAssert)
      else do
        let parts ← lift (splitSizes [n2, n2] v)
        match parts with
        | [l, r] => do
          let x ← invoke fun s => ops.vec s l r
          reduceE ops rev fuel x
        | _ => lift (.ub .staticAssert)
    else do
      let r ← lift (at' v 0)
      reduceLoopE ops v (n - 1) 1 r

@[inherit_doc reduceE]
def reduceCalls (ops : COps σ α τ) (rev : Nat → Bool) (v : List τ) : Eff σ τ := reduceE ops rev v.length v

/-- The loop of the masked `reduce` (`/repo/vir/simd.h` 2320-2322). -/
def reduceMaskedLoopE (ops : COps σ α τ) (k : List Bool) (v : List τ) : Nat → Nat → τ → Eff σ τ
  | 0, _, r => pure r
  | m + 1, i, r => do
    let b ← lift (at' k i)
    if b then do
      let x ← lift (at' v i)
      let r ← invoke fun s => ops.val s r x
      reduceMaskedLoopE ops k v m (i + 1) r
    else reduceMaskedLoopE ops k v m (i + 1) r

/-- `reduce(const_where_expression, identity_element, binary_op)` (`/repo/vir/simd.h` 2309-2325). -/
def reduceMaskedE (ops : COps σ α τ) (k : List Bool) (v : List τ) (identity : τ) : Eff σ τ := do
  let b ← lift (anyOf k)
  if b then reduceMaskedLoopE ops k v v.length 0 identity else pure identity

end Simd

/-- The operations `transform_reduce` works with if the simds are those of `/repo/vir/simd.h`: its horizontal reduction is
`reduceCalls`. That is defined for every simd (`reduceCalls_defined`), so the second case does not occur. -/
def COps.toROps {σ α τ : Type} (ops : COps σ α τ) (rev : Nat → Bool) : ROps σ α τ τ where
  trans := ops.trans
  red := ops.vec
  hredB s v := match Simd.reduceCalls ops rev v s with
    | .ok r => r
    | _ => (s, none)
  hredT s v := match Simd.reduceCalls ops rev v s with
    | .ok r => r
    | _ => (s, none)
  cvt := id
  transShape := ops.transShape
  redShape := ops.vecShape

end Vir
