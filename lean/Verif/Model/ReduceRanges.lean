import Verif.Model.ReduceEffects
import Verif.Model.Overloads

/-!
# The range overloads of `vir::transform_reduce` and `vir::reduce`

`/repo/vir/simd_execution.h` 1363-1394 and 1444-1472. They pass `begin` and `end` of the first range and only `begin` of the second one,
so here every range has its own length and every access is checked against the range it belongs to. All ranges live in one arena.
-/

namespace Vir
namespace TransformReduce
open ForEach Transform Eff

variable {σ α β τ : Type}

/-- `simdized_load_flag1_and_invoke` (`/repo/vir/simd_execution.h` 626-634) for iterators into `r1` and `rs`. -/
def loadRngsInvoke (e : Env) (r1 : Rng) (rs : List Rng) (ops : ROps σ α β τ) (mem : List α) : Loader σ β := fun aligned w p1 p2 => do
  let c ← lift (if aligned && !alignedAt e p1 w then .ub .misaligned else loadRng mem w r1 p1)
  let cs ← lift (loadRngs mem w p2 rs)
  invoke fun s => ops.trans s (c :: cs)

/-- `transform_reduce(policy, r1, r2, init, reduce_op, transform_op)` (`/repo/vir/simd_execution.h` 1373-1383), with the default
operations 1363-1371, and with one range 1385-1394 and (with the identity as `transform_op`) `reduce(policy, rg, ...)` 1444-1472:
the length of `r2` is not looked at. -/
def transformReduceRanges (e : Env) (r1 : Rng) (rs : List Rng) (ops : ROps σ α β τ) (mem : List α) (init : τ) : Eff σ τ :=
  transformReduceL ⟨e, r1.base :: rs.map Rng.base, 0, r1.len⟩ ops (loadRngsInvoke e r1 rs ops mem) init

end TransformReduce
end Vir
