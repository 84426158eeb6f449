import Verif.Model.CountIf
import Verif.Model.CountIfPartial

/-!
# `count_if` with predicates that are undefined for some arguments, also during constant evaluation

As `Verif/Model/CountIf.lean`, with a predicate that may be undefined for some simds. Unlike `countIfP` this model includes constant evaluation;
it does not include exceptions and effects of the predicate.
-/

namespace Vir
namespace CountIf

variable {α : Type}

/-- `pred(x)`: a mask of another width does not compile (`/repo/vir/simd_execution.h` 1506, 1512-1514, 1519). -/
def maskOf (p : PPred α) (x : List α) : Outcome (List Bool) := do
  let k ← p x.length x
  if k.length = x.length then .ok k else .ub .staticAssert

/-- `++where(vir::cvt(pred(x)), countv)` (`/repo/vir/simd_execution.h` 1512, 1519). -/
def incCountvC (p : PPred α) (x : List α) (s : Int × List Int) : Counters := do
  .ok (s.1, ← Simd.whereIncDec (addInt · 1) (← maskOf p x) s.2)

/-- `count += popcount(pred(x))` (`/repo/vir/simd_execution.h` 1514). -/
def incCountC (p : PPred α) (x : List α) (s : Int × List Int) : Counters := do
  .ok (← addInt s.1 (← Simd.popcount (← maskOf p x)), s.2)

/-- `(popcount(pred(x)) + ...)` (`/repo/vir/simd_execution.h` 1506), a right fold over the arguments; empty folds of `+` do not compile. -/
def popcountsC (p : PPred α) : List (List α) → Outcome Int
  | [] => .ub .staticAssert
  | [x] => do .ok (← Simd.popcount (← maskOf p x) : Nat)
  | x :: xs => do addInt (← Simd.popcount (← maskOf p x)) (← popcountsC p xs)

/-- The body of the lambda (`/repo/vir/simd_execution.h` 1503-1521). -/
def lambdaC (e : Env) (parallelSimd : Bool) (p : PPred α) (args : List (List α)) (s : Int × List Int) : Counters :=
  if parallelSimd && e.constEval then do
    .ok (← addInt s.1 (← popcountsC p args), s.2)
  else
    match args with
    | [x] => if x.length = s.2.length then incCountvC p x s else incCountC p x s
    | _ => args.foldl (fun s x => do incCountvC p x (← s)) (.ok s)

/-- The lambda as callable of `for_each`. The lambda of `/repo/vir/simd_execution.h` 1503-1520. -/
def callableC (e : Env) (parallelSimd : Bool) (p : PPred α) : Callable Counters α where
  call s args := (do lambdaC e parallelSimd p args (← s), args)
  shape _ _ := rfl

end CountIf
open CountIf ForEach

/-- `vir::count_if(pol, first, last, pred)` (`/repo/vir/simd_execution.h` 1493-1526) with a predicate that may be undefined for some arguments. -/
def countIfC {α : Type} (e : Env) (parallelSimd : Bool) (hred : List (Outcome Int) → Outcome Int) (p : PPred α) (mem : List α) : Outcome Int := do
  let (s, _) ← forEach e false (callableC e parallelSimd p) (.ok (0, List.replicate e.size 0)) mem
  let (count, countv) ← s
  addInt count (← sumCountv hred countv)

end Vir
