import Verif.Model.ForEachStruct
import Verif.Model.TransformGen
import Verif.Model.ReduceEffects

/-!
# `vir::transform` and `vir::transform_reduce` on arrays with different element types

`Verif/Model/Transform.lean` has one element type for all ranges. Here every range has its own: the state is a list of arrays, each
the flat sequence of the members of its elements (`Verif/Model/Simdize.lean`). An element is a struct with `c` members; scalars are
structs with one member, whose `simdize<T, w>` is loaded and stored member-wise, too. Two ranges may be the same array.

The callables see a simdized struct as the list of its lanes. All members have the type `α` in the model.
-/

namespace Vir.TransformArrays
open ForEach Transform

variable {α : Type}

/-- A range of elements with `c` members each: the whole array number `arr`, loaded and stored as `simdize<T, w>` (`F`). An iterator argument of `/repo/vir/simd_execution.h` 710-713, 939-943. -/
structure Range where
  arr : Nat
  c : Nat
  F : ForEachStruct.Family

/-- The arguments of `transform` apart from `op`: `ins` are the ranges of `first1, first2...`, `out` the range of `d_first`,
`n == last1 - first1`. `e.addr`, `e.sz`, `e.al` describe the output range. `/repo/vir/simd_execution.h` 710-713. -/
structure AEnv where
  e : Env
  ins : List Range
  out : Range
  n : Nat

/-- The lanes of a simdized struct of width `w`: `v[0], ..., v[w - 1]` (`operator[]`, `/repo/vir/simdize.h` 444-451, 571-577). -/
def lanesOf (w : Nat) (v : List (List α)) : List (List α) := (List.range w).map fun i => v.filterMap (·[i]?)

/-- The simdized struct with the given lanes, which have `c` members. The value of a simdized struct, `/repo/vir/simdize.h` 367-385, 516-540. -/
def ofLanes (c : Nat) (xs : List (List α)) : List (List α) := (List.range c).map fun m => xs.filterMap (·[m]?)

/-- `iter_simdize_t<It, w>(std::to_address(it), element_aligned)` (`/repo/vir/simd_execution.h` 616, 623). -/
def loadA (zero : α) (junk : Nat → α) (arrays : List (List α)) (w : Nat) (I : Range) (pos : Int) : Outcome (List (List α)) :=
  match arrays[I.arr]? with
  | none => .ub .badPointer
  | some mem => do
    let v ← ForEachStruct.load I.F zero junk mem w pos
    .ok (lanesOf w v)

/-- The pack expansion over `first2...`, all at position `pos` (`/repo/vir/simd_execution.h` 623). -/
def loadsA (zero : α) (junk : Nat → α) (arrays : List (List α)) (w : Nat) (pos : Int) : List Range → Outcome (List (List (List α)))
  | [] => .ok []
  | I :: Is => do
    let c ← loadA zero junk arrays w I pos
    let cs ← loadsA zero junk arrays w pos Is
    .ok (c :: cs)

/-- `simdized_load_and_invoke(op, size, it1, it2...)` (`/repo/vir/simd_execution.h` 618-624): `it1` is at position `p1`, all `it2` are
at position `p2`. -/
def loadAndInvokeA (zero : α) (junk : Nat → α) (A : AEnv) (op : VecOp (List α) (List α)) (arrays : List (List α)) (w : Nat)
    (p1 p2 : Int) : Outcome (List (List α)) :=
  match A.ins with
  | [] => .ub .staticAssert
  | I :: Is => do
    let c ← loadA zero junk arrays w I p1
    let cs ← loadsA zero junk arrays w p2 Is
    .ok (op.call (c :: cs))

/-- `result.copy_to(std::to_address(d_first), flags)` (`/repo/vir/simd_execution.h` 658, 690, 700, 745, 752, 781, 791). -/
def storeA (junk : Nat → α) (A : AEnv) (aligned : Bool) (w : Nat) (pos : Int) (v : List (List α)) (arrays : List (List α)) :
    Outcome (List (List α)) :=
  match arrays[A.out.arr]? with
  | none => .ub .badPointer
  | some mem =>
    if aligned && !alignedAt A.e pos w then .ub .misaligned
    else do
      let mem ← ForEachStruct.store A.out.F junk mem w pos (ofLanes A.out.c v)
      .ok (arrays.set A.out.arr mem)

/-- `fun0(cw<Is>)...` of `unroll2` (`/repo/vir/simd_execution.h` 777-779, `/repo/vir/detail.h` 270-280): all invocations of a group. -/
def evalA (zero : α) (junk : Nat → α) (A : AEnv) (op : VecOp (List α) (List α)) (arrays : List (List α)) (w : Nat) :
    Nat → Int → Int → Outcome (List (List (List α)))
  | 0, _, _ => .ok []
  | k + 1, p1, p2 => do
    let v ← loadAndInvokeA zero junk A op arrays w p1 p2
    let vs ← evalA zero junk A op arrays w k (p1 + (w : Int)) (p2 + (w : Int))
    .ok (v :: vs)

/-- `(fun1(cw<Is>, r0s), ...)` of `unroll2` (`/repo/vir/simd_execution.h` 780-782, `/repo/vir/detail.h` 276): all stores of a
group. -/
def storesA (junk : Nat → α) (A : AEnv) (aligned : Bool) (w : Nat) : List (List (List α)) → Int → List (List α) →
    Outcome (List (List α))
  | [], _, arrays => .ok arrays
  | v :: vs, pos, arrays => do
    let arrays ← storeA junk A aligned w pos v arrays
    storesA junk A aligned w vs (pos + (w : Int)) arrays

/-- One group of `k` chunks: first all loads and invocations, then all stores (`/repo/vir/simd_execution.h` 657-658, 689-690,
698-700, 744-745, 750-752, 777-782, 790-791). -/
def chunksA (zero : α) (junk : Nat → α) (A : AEnv) (op : VecOp (List α) (List α)) : TInv (List (List α)) :=
  fun w aligned k p1 d p2 arrays => do
    let vs ← evalA zero junk A op arrays w k p1 p2
    storesA junk A aligned w vs d arrays

/-- `detail::transform` (`/repo/vir/simd_execution.h` 710-806); the offsets in `TEnv` are not used by the control flow. -/
def transformA (zero : α) (junk : Nat → α) (A : AEnv) (op : VecOp (List α) (List α)) (arrays : List (List α)) :
    Outcome (Int × List (List α)) :=
  transformG ⟨A.e, [], 0, A.n⟩ (chunksA zero junk A op) arrays

/-- `simdized_load_flag1_and_invoke` (`/repo/vir/simd_execution.h` 626-634): `it0` is at position `p1`, all `its` are at position
`p2`. The flag matters for scalars only (`/repo/vir/simdize.h` 469-479, 907-912); for structs every position is aligned. -/
def loadArraysInvoke {σ β τ : Type} (zero : α) (junk : Nat → α) (e : Env) (ins : List Range) (ops : ROps σ (List α) β τ)
    (arrays : List (List α)) : TransformReduce.Loader σ β := fun aligned w p1 p2 =>
  match ins with
  | [] => Eff.lift (.ub .staticAssert)
  | I :: Is => do
    let c ← Eff.lift (if aligned && !alignedAt e p1 w then .ub .misaligned else loadA zero junk arrays w I p1)
    let cs ← Eff.lift (loadsA zero junk arrays w p2 Is)
    Eff.invoke fun s => ops.trans s (c :: cs)

/-- The ranges laid out one after the other: where they begin. No counterpart in the code: the ranges of `/repo/vir/simd_execution.h` 710-713 in one memory. -/
def bases (n : Nat) (ins : List Range) : List Nat := (List.range ins.length).map (· * n)

/-- `detail::transform_reduce` (`/repo/vir/simd_execution.h` 936-1088); `e` describes the first range. The offsets in `TEnv` are not
used: `transformReduceL` accesses memory through the loader only. -/
def transformReduceA {σ β τ : Type} (zero : α) (junk : Nat → α) (e : Env) (ins : List Range) (n : Nat) (ops : ROps σ (List α) β τ)
    (arrays : List (List α)) (init : τ) : Eff σ τ :=
  TransformReduce.transformReduceL ⟨e, bases n ins, 0, n⟩ ops (loadArraysInvoke zero junk e ins ops arrays) init

end Vir.TransformArrays
