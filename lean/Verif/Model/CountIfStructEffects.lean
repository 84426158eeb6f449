import Verif.Model.CountIfEffects
import Verif.Model.CountIfStruct
import Verif.Model.ThrowingStruct

/-!
# `count_if` on arrays of structs, with predicates that have side effects and may throw (`/repo/vir/simd_execution.h` 1491-1526)

At run time. See `Verif/Model/CountIfStruct.lean` and `Verif/Model/CountIfEffects.lean`.
-/

namespace Vir
namespace CountIfStruct
open Vir.CountIf Vir.ForEachStruct

variable {σ α : Type} {c : Nat}

/-- A predicate on simdized structs with `c` members, with state, that may throw (`none`). `pred`, `/repo/vir/simd_execution.h` 1493-1496. -/
structure STPred (σ α : Type) (c : Nat) where
  call : σ → List (List α) → σ × Option (List Bool)
  /-- the type of the mask -/
  shape : ∀ s v w r, v.length = c → (∀ m ∈ v, m.length = w) → (call s v).2 = some r → r.length = w

/-- `((++where(vir::cvt(pred(x)), countv)), ...)` (`/repo/vir/simd_execution.h` 1519), from left to right. -/
def predsThenInc (p : STPred σ α c) : List (List (List α)) → σ × Counters → (σ × Counters) × Bool
  | [], s => (s, true)
  | x :: xs, s =>
    match p.call s.1 x with
    | (s', none) => ((s', s.2), false)
    | (s', some k) => predsThenInc p xs (s', s.2 >>= incMaskv k)

/-- The body of the lambda (`/repo/vir/simd_execution.h` 1503-1521) at run time. The Boolean tells whether it
returns. -/
def lambdaT (p : STPred σ α c) (args : List (List (List α))) (s : σ × Counters) : (σ × Counters) × Bool :=
  match args with
  | [x] =>
    match p.call s.1 x with
    | (s', none) => ((s', s.2), false)
    | (s', some k) => ((s', s.2 >>= fun n => if width x = n.2.length then incMaskv k n else incMask k n), true)
  | _ => predsThenInc p args s

/-- The lambda as callable of `for_each`; it takes its arguments by value. The lambda of `/repo/vir/simd_execution.h` 1503-1520. -/
def callableT (p : STPred σ α c) : STCallable (σ × Counters) α c where
  call s args := ((lambdaT p args s).1, if (lambdaT p args s).2 then some args else none)
  shape s vs w r h hr := by
    split at hr
    · simp only [Option.some.injEq] at hr; rw [← hr]; exact ⟨rfl, h⟩
    · cases hr

end CountIfStruct
open CountIf CountIfStruct

/-- `vir::count_if(pol, first, last, pred)` (`/repo/vir/simd_execution.h` 1493-1526) on an array of structs with `c` members each: the state of
the predicate, and the result unless an exception leaves the function. -/
def countIfStructT {σ α : Type} {c : Nat} (e : Env) (F : ForEachStruct.Family) (zero : α) (junk : Nat → α)
    (hred : List (Outcome Int) → Outcome Int) (p : STPred σ α c) (s : σ) (mem : List α) : Outcome (σ × Option Int) := do
  let st ← ForEachStruct.forEachT e F zero junk false (callableT p) (s, .ok (0, List.replicate e.size 0)) mem
  match st with
  | .inr ((s', n), _) => do
    let _ ← n
    .ok (s', none)
  | .inl ((s', n), _) => do
    let (count, countv) ← n
    let r ← addInt count (← sumCountv hred countv)
    .ok (s', some r)

end Vir
