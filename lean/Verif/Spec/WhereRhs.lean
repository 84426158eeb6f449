import Verif.Model.WhereRhs
import Verif.Spec.Arith

/-!
# What a right-hand side contributes to a lane
-/

namespace Vir.Spec
open WhereRhs

/-- `c` is lane `i` of the right-hand side, converted to the type `t`: for a scalar the value itself modulo `2 ^ bits`, for every lane;
for a simd its lane; for a mask zero or one. -/
def RhsLane (t : IntTy) (x : Rhs) (i : Nat) (c : Int) : Prop :=
  match x with
  | .same x => x[i]? = some c
  | .scalar x => IsWrapped t x c
  | .simd _ x => ∃ a, x[i]? = some a ∧ IsWrapped t a c
  | .mask x => ∃ b, x[i]? = some b ∧ c = if b then 1 else 0

/-- The right-hand side has a lane for each of the `n` lanes. Types that convert implicitly have the same number of lanes; so have masks
that can be cast, to types that have both values. -/
def RhsFits (t : IntTy) (n : Nat) (x : Rhs) : Prop :=
  match x with
  | .same x => x.length = n ∧ LanesOf t x
  | .scalar _ => True
  | .simd true x => x.length = n
  | .simd false x => n ≤ x.length
  | .mask x => x.length = n ∧ t.Has 0 ∧ t.Has 1

end Vir.Spec
