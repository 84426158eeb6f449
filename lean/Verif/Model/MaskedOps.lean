import Verif.Model.PartialOps
import Verif.Model.CountIfPartial
import Verif.Model.LaneProg

/-!
# Simd programs with elements of any type as callables of the algorithms
-/

namespace Vir.LaneProg
open SimdProg

variable {α : Type}

/-- The callable `[](auto... x) { V t0 = z0, ...; M k0 = false, ...; p; return x_out; }` with the initial values `zs` of further simd variables
and `nm` masks (`/repo/vir/simd.h` 1574-1579, 795-797: broadcasts), as invoked by `/repo/vir/simd_execution.h` 48-60, 618-624. More than
`fuel` tests of a loop condition count as an endless loop. -/
def laneOp (zs : List α) (nm out : Nat) (p : Stmt α) (fuel : Nat) : POp α := fun w args => do
  let s ← p.run w fuel ⟨args ++ zs.map (List.replicate w ·), List.replicate nm (List.replicate w false)⟩
  get s.vars out

/-- The same as predicate: returns the mask `k_out`. Invoked by `/repo/vir/simd_execution.h` 1503-1520. -/
def lanePred (zs : List α) (nm out : Nat) (p : Stmt α) (fuel : Nat) : CountIf.PPred α := fun w x => do
  let s ← p.run w fuel ⟨x :: zs.map (List.replicate w ·), List.replicate nm (List.replicate w false)⟩
  get s.masks out

end Vir.LaneProg
