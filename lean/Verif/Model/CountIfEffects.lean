import Verif.Model.CountIf
import Verif.Model.Throwing

/-!
# `count_if` with predicates that have side effects and may throw (`/repo/vir/simd_execution.h` 1491-1526)

At run time. (The counters and the single argument of constant evaluation are in `Verif/Model/CountIf.lean`.)
-/

namespace Vir
namespace CountIf

variable {σ α : Type}

/-- A predicate with state that may throw (`none`). `pred`, `/repo/vir/simd_execution.h` 1493-1496. -/
structure TPred (σ α : Type) where
  call : σ → List α → σ × Option (List Bool)
  shape : ∀ s x r, (call s x).2 = some r → r.length = x.length

/-- `++where(vir::cvt(k), countv)` (`/repo/vir/simd_execution.h` 1512, 1519). -/
def incMaskv (k : List Bool) (s : Int × List Int) : Counters := do
  .ok (s.1, ← Simd.whereIncDec (addInt · 1) k s.2)

/-- `count += popcount(k)` (`/repo/vir/simd_execution.h` 1514). -/
def incMask (k : List Bool) (s : Int × List Int) : Counters := do
  .ok (← addInt s.1 (← Simd.popcount k), s.2)

/-- `((++where(vir::cvt(pred(x)), countv)), ...)` (`/repo/vir/simd_execution.h` 1519), from left to right. -/
def predsThenInc (p : TPred σ α) : List (List α) → σ × Counters → (σ × Counters) × Bool
  | [], s => (s, true)
  | x :: xs, s =>
    match p.call s.1 x with
    | (s', none) => ((s', s.2), false)
    | (s', some k) => predsThenInc p xs (s', s.2 >>= incMaskv k)

/-- The body of the lambda (`/repo/vir/simd_execution.h` 1503-1521) at run time. The Boolean tells whether it
returns. -/
def lambdaT (p : TPred σ α) (args : List (List α)) (s : σ × Counters) : (σ × Counters) × Bool :=
  match args with
  | [x] =>
    match p.call s.1 x with
    | (s', none) => ((s', s.2), false)
    | (s', some k) => ((s', s.2 >>= fun c => if x.length = c.2.length then incMaskv k c else incMask k c), true)
  | _ => predsThenInc p args s

/-- The lambda as callable of `for_each`; it takes its arguments by value. The lambda of `/repo/vir/simd_execution.h` 1503-1520. -/
def callableT (p : TPred σ α) : TCallable (σ × Counters) α where
  call s args := ((lambdaT p args s).1, if (lambdaT p args s).2 then some args else none)
  shape s cs r h := by
    split at h
    · simp only [Option.some.injEq] at h; rw [h]
    · cases h

end CountIf
open CountIf ForEach

/-- `vir::count_if(pol, first, last, pred)` (`/repo/vir/simd_execution.h` 1493-1526): the state of the predicate, and the result
unless an exception leaves the function. -/
def countIfT {σ α : Type} (e : Env) (hred : List (Outcome Int) → Outcome Int) (p : TPred σ α) (s : σ) (mem : List α) :
    Outcome (σ × Option Int) := do
  let st ← forEachT e false (callableT p) (s, .ok (0, List.replicate e.size 0)) mem
  match st with
  | .inr ((s', c), _) => do
    let _ ← c
    .ok (s', none)
  | .inl ((s', c), _) => do
    let (count, countv) ← c
    let r ← addInt count (← sumCountv hred countv)
    .ok (s', some r)

end Vir
