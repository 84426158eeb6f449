import Verif.Model.CountIf
import Verif.Model.ForEachStruct

/-!
# `vir::count_if` on an array of structs (`/repo/vir/simd_execution.h` 1491-1526)

`TV` is the simdized struct (`/repo/vir/simdize.h` 330-355); `countv` has as many lanes (`/repo/vir/simd_execution.h` 1499-1500).
-/

namespace Vir
namespace CountIfStruct
open Vir.CountIf Vir.ForEachStruct

variable {α : Type} {c : Nat}

/-- The predicate: maps a simdized struct with `c` members to a mask of the same width. `pred`, `/repo/vir/simd_execution.h` 1493-1496. -/
structure SPred (α : Type) (c : Nat) where
  call : List (List α) → List Bool
  /-- the type of the mask -/
  shape : ∀ v w, v.length = c → (∀ m ∈ v, m.length = w) → (call v).length = w

/-- `x.size()` of a simdized struct: the width of its first member (`/repo/vir/simdize.h` 380-385, 530-535; used in
`/repo/vir/simd_execution.h` 1511). -/
def width (x : List (List α)) : Nat := (x.headD []).length

/-- `++where(vir::cvt(pred(x)), countv)` (`/repo/vir/simd_execution.h` 1512, 1518). -/
def incCountv (p : SPred α c) (x : List (List α)) (s : Int × List Int) : Counters := do
  .ok (s.1, ← Simd.whereIncDec (addInt · 1) (p.call x) s.2)

/-- `count += popcount(pred(x))` (`/repo/vir/simd_execution.h` 1514). -/
def incCount (p : SPred α c) (x : List (List α)) (s : Int × List Int) : Counters := do
  .ok (← addInt s.1 (← Simd.popcount (p.call x)), s.2)

/-- `count += (popcount(pred(x)) + ...)` (`/repo/vir/simd_execution.h` 1506), a right fold over the arguments. -/
def incCountAll (p : SPred α c) (xs : List (List (List α))) (s : Int × List Int) : Counters := do
  let sum : List (List (List α)) → Outcome Int := fun xs => xs.dropLast.foldr
    (fun x acc => do addInt (← Simd.popcount (p.call x)) (← acc))
    (match xs.getLast? with
      | some x => do .ok (← Simd.popcount (p.call x) : Nat)
      | none => .ub .staticAssert)
  .ok (← addInt s.1 (← sum xs), s.2)

/-- The body of the lambda (`/repo/vir/simd_execution.h` 1503-1520), whose arguments are simdized structs. -/
def lambda (e : Env) (parallelSimd : Bool) (p : SPred α c) (args : List (List (List α))) (s : Int × List Int) : Counters :=
  if parallelSimd && e.constEval then incCountAll p args s
  else
    match args with
    | [x] => if width x = s.2.length then incCountv p x s else incCount p x s
    | _ => args.foldl (fun s x => do incCountv p x (← s)) (.ok s)

/-- The lambda as callable of `for_each`; it takes its arguments by value. The lambda of `/repo/vir/simd_execution.h` 1503-1520. -/
def callable (e : Env) (parallelSimd : Bool) (p : SPred α c) : SCallable Counters α c where
  call s args := (do lambda e parallelSimd p args (← s), args)
  shape _ _ _ h := ⟨rfl, h⟩

end CountIfStruct
open CountIf CountIfStruct

/-- `vir::count_if(pol, first, last, pred)` (`/repo/vir/simd_execution.h` 1493-1526) on an array of structs with `c` members each. -/
def countIfStruct {α : Type} {c : Nat} (e : Env) (F : ForEachStruct.Family) (zero : α) (junk : Nat → α) (parallelSimd : Bool)
    (hred : List (Outcome Int) → Outcome Int) (p : SPred α c) (mem : List α) : Outcome Int := do
  let (s, _) ← ForEachStruct.forEach e F zero junk false (callable e parallelSimd p) (.ok (0, List.replicate e.size 0)) mem
  let (count, countv) ← s
  addInt count (← sumCountv hred countv)

end Vir
