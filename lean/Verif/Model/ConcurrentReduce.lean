import Verif.Model.ReduceEffects

/-!
# `vir::transform_reduce` while other threads change memory

`transform_reduce` only reads. It reads element after element, and between two of its accesses other threads may change memory. So
here its state is the number of accesses so far, and the `k`-th access is to the memory `mems k`. All else is
`Verif/Model/ReduceEffects.lean`.

Simplification: the elements of the first range are read before those of the others, and the lanes of a simd object in order
(the order of the evaluation of function arguments is unspecified).
-/

namespace Vir.Threads
open ForEach Eff TransformReduce

variable {α β τ : Type}

/-- The accesses to `w` elements from address `a` on. `/repo/vir/simd_execution.h` 632-633. -/
def readEach (mems : Nat → List α) (a : Nat) : Nat → Eff Nat (List α)
  | 0 => pure []
  | w + 1 => fun k =>
    match (mems k)[a]? with
    | none => .ub .oob
    | some x => (readEach mems (a + 1) w >>= fun xs => pure (x :: xs) : Eff Nat (List α)) (k + 1)

/-- A load from one of the input ranges (`/repo/vir/simd_execution.h` 632-633). -/
def loadTimed (t : TEnv) (mems : Nat → List α) (w base : Nat) (pos : Int) : Eff Nat (List α) :=
  if inRange t.n pos w then readEach mems (base + pos.toNat) w else lift (.ub .oob)

/-- The pack expansion over `its...` (`/repo/vir/simd_execution.h` 633). -/
def loadsTimed (t : TEnv) (mems : Nat → List α) (w : Nat) (pos : Int) : List Nat → Eff Nat (List (List α))
  | [] => pure []
  | b :: bs => do
    let c ← loadTimed t mems w b pos
    let cs ← loadsTimed t mems w pos bs
    pure (c :: cs)

/-- `iter_simdize_t<It0, w>(std::to_address(it0), flag0)` (`/repo/vir/simd_execution.h` 632). -/
def loadFlagTimed (t : TEnv) (mems : Nat → List α) (aligned : Bool) (w base : Nat) (pos : Int) : Eff Nat (List α) :=
  if aligned && !alignedAt t.e pos w then lift (.ub .misaligned) else loadTimed t mems w base pos

/-- `simdized_load_flag1_and_invoke` (`/repo/vir/simd_execution.h` 626-634). -/
def loadInvokeTimed (t : TEnv) (ops : ROps Nat α β τ) (mems : Nat → List α) : Loader Nat β := fun aligned w p1 p2 =>
  match t.ins with
  | [] => lift (.ub .staticAssert)
  | b1 :: bs => do
    let c ← loadFlagTimed t mems aligned w b1 p1
    let cs ← loadsTimed t mems w p2 bs
    invoke fun s => ops.trans s (c :: cs)

/-- `detail::transform_reduce` (`/repo/vir/simd_execution.h` 936-1088) whose `k`-th access is to the memory `mems k`. -/
def transformReduceTimed (t : TEnv) (ops : ROps Nat α β τ) (mems : Nat → List α) (init : τ) : Eff Nat τ :=
  transformReduceL t ops (loadInvokeTimed t ops mems) init

end Vir.Threads
