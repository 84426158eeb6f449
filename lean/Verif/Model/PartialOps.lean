import Verif.Model.Throwing

/-!
# `for_each` and `transform` with callables that are undefined for some arguments

An operation such as `[](auto x, auto y) { return x / y; }` has undefined behaviour if a lane of `y` is zero. Here a callable returns an
`Outcome`; undefined behaviour of the callable is undefined behaviour of the algorithm. `Verif/Model/SimdExpr.lean` has callables built
from the operators of `simd`.
-/

namespace Vir

/-- An operation on simds of a given width: from the arguments to the result. The callables of `/repo/vir/simd_execution.h` 48-60, 618-624. -/
abbrev POp (α : Type) := (w : Nat) → List (List α) → Outcome (List α)

variable {α : Type}

namespace ForEach

/-- The callable `[](auto&... x) { ((x = op(x)), ...); }`. A callable for `/repo/vir/simd_execution.h` 48-60. -/
def assignAll (op : POp α) (w : Nat) : List (List α) → Outcome (List (List α))
  | [] => .ok []
  | c :: cs => do
    let r ← op w [c]
    let rs ← assignAll op w cs
    .ok (r :: rs)

/-- `simd_load_and_invoke<V, true>` (`/repo/vir/simd_execution.h` 48-60). -/
def invokeP (e : Env) (op : POp α) : Inv (List α) := fun w aligned k pos mem => do
  let cs ← loadAll e mem aligned w k pos
  let rs ← assignAll op w cs
  storeAll e aligned w rs pos mem

/-- `vir::for_each` (`/repo/vir/simd_execution.h` 1110-1172). -/
def forEachP (e : Env) (op : POp α) (mem : List α) : Outcome (List α) := forEachG e (invokeP e op) mem.length mem

end ForEach

namespace Transform
open ForEach

/-- `fun0(cw<Is>)...` of `unroll2` (`/repo/vir/detail.h` 270-280), in the order of evaluation `is`. -/
def evalP (t : TEnv) (op : POp α) (mem : List α) (w : Nat) (p1 p2 : Int) : List Nat → Outcome (List (Nat × List α))
  | [] => .ok []
  | i :: is => do
    let args ← loadArgs t mem w (p1 + ((i * w : Nat) : Int)) (p2 + ((i * w : Nat) : Int))
    let v ← op w args
    let r ← evalP t op mem w p1 p2 is
    .ok ((i, v) :: r)

/-- One group of `k` chunks, `/repo/vir/simd_execution.h` 657-658, 689-690, 698-700, 744-745, 777-782, 790-791. `ord k` is the order in
which the compiler evaluates the `k` invocations. -/
def chunksP (t : TEnv) (ord : Nat → List Nat) (op : POp α) : TInv (List α) := fun w aligned k p1 d p2 mem => do
  let rs ← evalP t op mem w p1 p2 (ord k)
  storeGroup t aligned w rs d (List.range k) mem

/-- `detail::transform` (`/repo/vir/simd_execution.h` 710-806). -/
def transformP (t : TEnv) (ord : Nat → List Nat) (op : POp α) (mem : List α) : Outcome (Int × List α) :=
  transformG t (chunksP t ord op) mem

end Transform
end Vir
