import Verif.Model.ProgOps
import Verif.Model.TransformReduce

/-!
# Operations that may be undefined, and simd programs, as `transform_op` of `vir::transform_reduce`
-/

namespace Vir.TransformReduce

variable {β : Type}

/-- The lanes of what an invocation of `transform_op` with simds of width `w` returns (`/repo/vir/simd_execution.h` 626-634), each to be
added to the result. If the invocation is undefined they all are. A result of another width does not compile. -/
def lanes (w : Nat) : Outcome (List β) → List (Outcome β)
  | .ok r => if r.length = w then r.map .ok else List.replicate w (.ub .staticAssert)
  | .ub u => List.replicate w (.ub u)
  | .trap => List.replicate w .trap

theorem lanes_length (w : Nat) (o : Outcome (List β)) : (lanes w o).length = w := by
  cases o with
  | ok r =>
    simp only [lanes]
    by_cases h : r.length = w
    · rw [if_pos h, List.length_map, h]
    · rw [if_neg h, List.length_replicate]
  | ub u => exact List.length_replicate
  | trap => exact List.length_replicate

/-- An operation that may be undefined as `transform_op` in an aggregation of values that may be undefined (C70, C100), as invoked by `/repo/vir/simd_execution.h`
626-634. -/
def joint (op : POp β) : VecOp β (Outcome β) where
  call args := lanes (args.headD []).length (op (args.headD []).length args)
  shape w args hne hl := by
    cases args with
    | nil => exact absurd rfl hne
    | cons a as => rw [lanes_length]; exact hl a (by simp)

end Vir.TransformReduce
