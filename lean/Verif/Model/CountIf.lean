import Verif.Model.ForEach
import Verif.Model.MaskReductions
import Verif.Model.SimdReduce
import Verif.Model.SimdWhere

/-!
# Model of `vir::count_if` (`/repo/vir/simd_execution.h` 1491-1526)

The counters are 32-bit `int`s: an addition that leaves their range is undefined.
-/

namespace Vir
namespace CountIf

variable {α : Type}

/-- `a + b` for `int` operands. `/repo/vir/simd_execution.h` 1506, 1512-1521. -/
def addInt (a b : Int) : Outcome Int :=
  if -2 ^ 31 ≤ a + b ∧ a + b < 2 ^ 31 then .ok (a + b) else .ub .overflow

/-- The predicate: maps a simd object to a mask of the same width. `pred`, `/repo/vir/simd_execution.h` 1493-1496. -/
structure Pred (α : Type) where
  call : List α → List Bool
  shape : ∀ x, (call x).length = x.length

/-- The variables captured by the lambda: `int count` and the lanes of `countv`; or an undefined execution. The results of `/repo/vir/simd_execution.h` 1501-1502. -/
abbrev Counters := Outcome (Int × List Int)

/-- `++where(vir::cvt(pred(x)), countv)` (`/repo/vir/simd_execution.h` 1512, 1519). The conversion of the mask to the mask
type of `countv` preserves the lanes. -/
def incCountv (p : Pred α) (x : List α) (s : Int × List Int) : Counters := do
  .ok (s.1, ← Simd.whereIncDec (addInt · 1) (p.call x) s.2)

/-- `count += popcount(pred(x))` (`/repo/vir/simd_execution.h` 1514). -/
def incCount (p : Pred α) (x : List α) (s : Int × List Int) : Counters := do
  .ok (← addInt s.1 (← Simd.popcount (p.call x)), s.2)

/-- `count += (popcount(pred(x)) + ...)` (`/repo/vir/simd_execution.h` 1506), a right fold over the arguments. -/
def incCountAll (p : Pred α) (xs : List (List α)) (s : Int × List Int) : Counters := do
  let sum : List (List α) → Outcome Int := fun xs => xs.dropLast.foldr
    (fun x acc => do addInt (← Simd.popcount (p.call x)) (← acc))
    (match xs.getLast? with
      | some x => do .ok (← Simd.popcount (p.call x) : Nat)
      | none => .ub .staticAssert)
  .ok (← addInt s.1 (← sum xs), s.2)

/-- The body of the lambda (`/repo/vir/simd_execution.h` 1503-1521). `parallelSimd` tells whether the macro
`__cpp_lib_experimental_parallel_simd` is at least 201803. -/
def lambda (e : Env) (parallelSimd : Bool) (p : Pred α) (args : List (List α)) (s : Int × List Int) : Counters :=
  if parallelSimd && e.constEval then incCountAll p args s
  else
    match args with
    | [x] => if x.length = s.2.length then incCountv p x s else incCount p x s
    | _ => args.foldl (fun s x => do incCountv p x (← s)) (.ok s)

/-- The lambda as callable of `for_each`; it takes its arguments by value. The lambda of `/repo/vir/simd_execution.h` 1503-1520. -/
def callable (e : Env) (parallelSimd : Bool) (p : Pred α) : Callable Counters α where
  call s args := (do lambda e parallelSimd p args (← s), args)
  shape _ _ := rfl

/-- `reduce(countv)` with `int` additions: `hred` is the horizontal sum of the simd implementation, applied to additions
that may be undefined. `/repo/vir/simd_execution.h` 1521. -/
def sumCountv (hred : List (Outcome Int) → Outcome Int) (v : List Int) : Outcome Int := hred (v.map .ok)

/-- Addition of two `int` values that may be results of undefined executions. `/repo/vir/simd_execution.h` 1521. -/
def addO (a b : Outcome Int) : Outcome Int := do addInt (← a) (← b)

/-- The horizontal sum of the fallback `simd` (`/repo/vir/simd.h` 2279-2307) on such values. -/
def fallbackSum (v : List (Outcome Int)) : Outcome Int := do
  ← Simd.reduceV (fun l r => .ok (List.zipWith addO l r)) addO v

end CountIf
open CountIf ForEach

/-- `vir::count_if(pol, first, last, pred)` (`/repo/vir/simd_execution.h` 1493-1526). -/
def countIf {α : Type} (e : Env) (parallelSimd : Bool) (hred : List (Outcome Int) → Outcome Int) (p : Pred α)
    (mem : List α) : Outcome Int := do
  let (s, _) ← forEach e false (callable e parallelSimd p) (.ok (0, List.replicate e.size 0)) mem
  let (count, countv) ← s
  addInt count (← sumCountv hred countv)

end Vir
