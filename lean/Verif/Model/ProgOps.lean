import Verif.Model.PartialOps
import Verif.Model.SimdProg

/-!
# Simd programs as callables of the algorithms
-/

namespace Vir.SimdProg

/-- The callable `[](auto... x) { V t0 = 0, ...; M k0 = false, ...; p; return x_out; }` with `nt` further simd variables and `nm` masks
(`/repo/vir/simd.h` 1574-1579, 795-797: broadcasts), as invoked by `/repo/vir/simd_execution.h` 48-60, 618-624. More than `fuel` tests
of a loop condition count as an endless loop. -/
def progOp (nt nm out : Nat) (p : Stmt) (fuel : Nat) : POp Int := fun w args => do
  let s ← p.run w fuel ⟨args ++ List.replicate nt (List.replicate w 0), List.replicate nm (List.replicate w false)⟩
  get s.vars out

end Vir.SimdProg
