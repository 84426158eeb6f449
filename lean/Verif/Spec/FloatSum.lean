import Verif.Spec.Reduce
import Verif.Props.ValuePreserving

/-!
# Rounding errors of sums
-/

namespace Vir.Spec
open Convert (FloatTy)

/-- A standard floating-point format: see `StandardTy`. -/
def StandardFloat (f : FloatTy) : Prop := 0 < f.digits ∧ f.digits < f.emax ∧ 128 ≤ f.emax

/-- `rnd` is a conversion to the format in some rounding mode: values are unchanged, it is monotonic and the results are values of the format. -/
def RoundsTo (f : FloatTy) (rnd : ℚ → ℚ) : Prop :=
  (∀ q, FloatValue f q → rnd q = q) ∧ (∀ p q, p ≤ q → rnd p ≤ rnd q) ∧ ∀ q, FloatValue f (rnd q)

/-- `rnd` rounds to a nearest value. -/
def RoundsToNearest (f : FloatTy) (rnd : ℚ → ℚ) : Prop := RoundsTo f rnd ∧ ∀ q x, FloatValue f x → |rnd q - q| ≤ |x - q|

/-- Addition in the format: the exact sum, rounded. -/
def fadd (rnd : ℚ → ℚ) (a b : ℚ) : ℚ := rnd (a + b)

/-- Multiplication in the format. -/
def fmul (rnd : ℚ → ℚ) (a b : ℚ) : ℚ := rnd (a * b)

/-- `u` is the unit roundoff of the rounding mode: `2 ^ -digits` if it rounds to nearest, twice as much otherwise. -/
def Roundoff (f : FloatTy) (rnd : ℚ → ℚ) (u : ℚ) : Prop :=
  (RoundsToNearest f rnd ∧ u = 2 ^ (-(f.digits : ℤ))) ∨ (RoundsTo f rnd ∧ u = 2 ^ ((1 : ℤ) - f.digits))

/-- The smallest positive value of the format, `numeric_limits::denorm_min()`. -/
def denormMin (f : FloatTy) : ℚ := 2 ^ ((3 : ℤ) - f.emax - f.digits)

/-- The sum of the absolute values. -/
def absSum (xs : List ℚ) : ℚ := (xs.map abs).sum

end Vir.Spec
