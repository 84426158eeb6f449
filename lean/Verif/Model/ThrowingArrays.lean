import Verif.Model.ArrayAlgorithms
import Verif.Model.Throwing

/-!
# `vir::transform` on arrays with different element types, with operations that have side effects and may throw

See `Verif/Model/ArrayAlgorithms.lean` for the arrays and `Verif/Model/Throwing.lean` for exceptions and the order of evaluation.
-/

namespace Vir.TransformArrays
open ForEach Transform

variable {σ α : Type}

/-- The arguments of one invocation: `simdized_load_and_invoke`, `/repo/vir/simd_execution.h` 618-624. -/
def loadArgsA (zero : α) (junk : Nat → α) (A : AEnv) (arrays : List (List α)) (w : Nat) (p1 p2 : Int) : Outcome (List (List (List α))) :=
  match A.ins with
  | [] => .ub .staticAssert
  | I :: Is => do
    let c ← loadA zero junk arrays w I p1
    let cs ← loadsA zero junk arrays w p2 Is
    .ok (c :: cs)

/-- `fun0(cw<Is>)...` of `unroll2` (`/repo/vir/simd_execution.h` 777-779, `/repo/vir/detail.h` 270-280): the list contains the indices in
the order of evaluation, which is unspecified. An exception ends the evaluation. -/
def evalGroupA (zero : α) (junk : Nat → α) (A : AEnv) (op : TOp σ (List α)) (arrays : List (List α)) (w : Nat) (p1 p2 : Int) :
    List Nat → σ → Outcome (σ × Option (List (Nat × List (List α))))
  | [], s => .ok (s, some [])
  | i :: is, s => do
    let args ← loadArgsA zero junk A arrays w (p1 + ((i * w : Nat) : Int)) (p2 + ((i * w : Nat) : Int))
    match op.call s args with
    | (s', none) => .ok (s', none)
    | (s', some v) => do
      let r ← evalGroupA zero junk A op arrays w p1 p2 is s'
      .ok (r.1, r.2.map ((i, v) :: ·))

/-- `(fun1(cw<Is>, r0s), ...)` of `unroll2` (`/repo/vir/simd_execution.h` 780-782, `/repo/vir/detail.h` 276): the results are stored in the
order of the indices. -/
def storeGroupA (junk : Nat → α) (A : AEnv) (aligned : Bool) (w : Nat) (rs : List (Nat × List (List α))) (d : Int) :
    List Nat → List (List α) → Outcome (List (List α))
  | [], arrays => .ok arrays
  | i :: is, arrays =>
    match rs.lookup i with
    | none => .ub .uninit
    | some v => do
      let arrays ← storeA junk A aligned w (d + ((i * w : Nat) : Int)) v arrays
      storeGroupA junk A aligned w rs d is arrays

/-- One group of `k` chunks, `/repo/vir/simd_execution.h` 657-658, 689-690, 698-700, 744-745, 777-782, 790-791. `ord k` is the order in
which the compiler evaluates the `k` invocations. -/
def chunksTA (zero : α) (junk : Nat → α) (A : AEnv) (ord : Nat → List Nat) (op : TOp σ (List α)) : TInv (TState σ (List α)) :=
  fun w aligned k p1 d p2 st =>
    match st with
    | .inr x => .ok (.inr x)
    | .inl (s, arrays) => do
      let r ← evalGroupA zero junk A op arrays w p1 p2 (ord k) s
      match r with
      | (s', none) => .ok (.inr (s', arrays))
      | (s', some rs) => do
        let arrays ← storeGroupA junk A aligned w rs d (List.range k) arrays
        .ok (.inl (s', arrays))

/-- `detail::transform` (`/repo/vir/simd_execution.h` 710-806); the offsets in `TEnv` are not used by the control flow. -/
def transformTA (zero : α) (junk : Nat → α) (A : AEnv) (ord : Nat → List Nat) (op : TOp σ (List α)) (s : σ) (arrays : List (List α)) :
    Outcome (Int × TState σ (List α)) :=
  transformG ⟨A.e, [], 0, A.n⟩ (chunksTA zero junk A ord op) (.inl (s, arrays))

end Vir.TransformArrays
