import Verif.Model.Concurrent
import Verif.Model.ForEachStruct

/-!
# `for_each` on arrays of structs as a program of member accesses

See `Verif/Model/Concurrent.lean`. A load or store of a simdized struct of `w` lanes accesses the `w * c` members of `w` consecutive structs
(`/repo/vir/simdize.h` 469-493, 907-929), here one after the other. Which vectors they are loaded with, and how the vectors are permuted, is
part of the invocation: it works on a copy of the members.
-/

namespace Vir.Threads
open ForEach ForEachStruct

variable {σ α : Type} {c : Nat}

/-- The accesses of `k` chunks of an array of `n` structs with `c` members at arena offset `base`: the loads (`/repo/vir/simd_execution.h` 58)
or the stores (57) of `simd_load_and_invoke`. -/
def accessesS (c : Nat) (mk : Nat → Instr σ α) (base n w : Nat) : Nat → Int → Outcome (List (Instr σ α))
  | 0, _ => .ok []
  | k + 1, pos =>
    if !inRange n pos w then .ub .oob
    else do
      let r ← accessesS c mk base n w k (pos + w)
      .ok (each mk (base + pos.toNat * c) (w * c) ++ r)

/-- The loads, the call and the stores of `simd_load_and_invoke` (`/repo/vir/simd_execution.h` 48-60) on a copy `xs` of the members. -/
def invokeCopy (F : Family) (zero : α) (junk : Nat → α) (wb : Bool) (f : SCallable σ α c) (w k : Nat) (s : σ) (xs : List α) : σ × List α :=
  match ForEachStruct.invoke F zero junk wb f w false k 0 (s, xs) with
  | .ok (s', ys) => (s', if wb then ys else [])
  | _ => (s, [])

/-- `simd_load_and_invoke` (`/repo/vir/simd_execution.h` 48-60) for simdized structs as a sequence of steps. -/
def emitInvokeS (F : Family) (zero : α) (junk : Nat → α) (wb : Bool) (f : SCallable σ α c) (base n : Nat) :
    ForEach.Inv (List (Instr σ α)) := fun w _aligned k pos acc => do
  let ls ← accessesS c .load base n w k pos
  if wb then do
    let ss ← accessesS c .store base n w k pos
    .ok (acc ++ (ls ++ .call (invokeCopy F zero junk wb f w k) :: ss))
  else .ok (acc ++ (ls ++ [.call (invokeCopy F zero junk wb f w k)]))

/-- The steps of `for_each` (`/repo/vir/simd_execution.h` 1110-1172) on the `n` structs at arena offset `base`. -/
def forEachStructProgram (e : Env) (F : Family) (zero : α) (junk : Nat → α) (wb : Bool) (f : SCallable σ α c) (base n : Nat) :
    Outcome (List (Instr σ α)) :=
  forEachG e (emitInvokeS F zero junk wb f base n) n []

end Vir.Threads
