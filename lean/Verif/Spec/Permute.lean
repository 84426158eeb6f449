/-! # What a permutation index means -/

namespace Vir.Spec

/-- The documented meaning of index `j` for the input `v`: `simd_permute_zero` (`INT_MAX`) requests a zero, a non-negative
index counts from the first lane, a negative index counts from one past the last lane. -/
def Picks {α : Type} (zero : α) (v : List α) (j : Int) (x : α) : Prop :=
  (j = 2147483647 ∧ x = zero) ∨ (0 ≤ j ∧ v[j.toNat]? = some x) ∨
    (j < 0 ∧ -j ≤ v.length ∧ v[(v.length + j).toNat]? = some x)

end Vir.Spec
