import Verif.Model.ConstexprWrapper

/-!
# What expressions of constants mean
-/

namespace Vir.Spec
open Cw

variable {V : Type}

/-- The value of an expression if every operand is replaced by its value. -/
def evalExpr : Expr V → Outcome V
  | .leaf t => .ok t.conv
  | .un op e => do
    let x ← evalExpr e
    op x
  | .bin op a b => do
    let x ← evalExpr a
    let y ← evalExpr b
    op x y

/-- A `constexpr_wrapper` or a class derived from one that does not redefine `value`; or a type that has nothing to do with
`constexpr_wrapper`: a constant like `std::integral_constant`, or a type without static `value`. No wrappers are among the template
arguments of the type. -/
def Ordinary (t : Operand V) : Prop :=
  t.args = [] ∧ (∀ v, t.value = some v → v = t.conv) ∧ (t.bases = [] ∨ t.value = some t.conv ∧ t.bases = [t.conv])

/-- All operands are ordinary. -/
def OrdinaryLeaves : Expr V → Prop
  | .leaf t => Ordinary t
  | .un _ e => OrdinaryLeaves e
  | .bin _ a b => OrdinaryLeaves a ∧ OrdinaryLeaves b

mutual
/-- The expression ought to be a constant of type `constexpr_wrapper`: operators on such constants, where one of two operands may be
another constant. -/
def WrappedExpr : Expr V → Prop
  | .leaf t => t.bases ≠ []
  | .un _ e => WrappedExpr e
  | .bin _ a b => ConstantExpr a ∧ ConstantExpr b ∧ (WrappedExpr a ∨ WrappedExpr b)
/-- The type of the expression carries its value. -/
def ConstantExpr : Expr V → Prop
  | .leaf t => t.value ≠ none
  | .un _ e => WrappedExpr e
  | .bin _ a b => ConstantExpr a ∧ ConstantExpr b ∧ (WrappedExpr a ∨ WrappedExpr b)
end

end Vir.Spec
