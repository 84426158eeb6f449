import Verif.Spec.Arith
import Verif.Model.IntHReduce

/-!
# What the reduction of a list of integers is
-/

namespace Vir.Spec
open Simd

/-- `r` is the reduction of the values `xs` of type `t`: their mathematical sum or product modulo `2 ^ bits`; or every bit of `r` is set if
it is set in all of them, in one of them, in an odd number of them. -/
def IsReduction (t : IntTy) : RedOp → List Int → Int → Prop
  | .plus, xs, r => IsWrapped t xs.sum r
  | .multiplies, xs, r => IsWrapped t xs.prod r
  | .bitAnd, xs, r => t.Has r ∧ ∀ j < t.bits, (bitOf r j = true ↔ ∀ x ∈ xs, bitOf x j = true)
  | .bitOr, xs, r => t.Has r ∧ ∀ j < t.bits, (bitOf r j = true ↔ ∃ x ∈ xs, bitOf x j = true)
  | .bitXor, xs, r => t.Has r ∧ ∀ j < t.bits, (bitOf r j = true ↔ (xs.countP fun x => bitOf x j) % 2 = 1)

/-- The operation is defined on all pairs of values of the type: sums of unsigned and of narrow types wrap around; so do products, except
that the product of two `unsigned short` is computed as `int`; bitwise operations are always defined. -/
def NeverOverflows (t : IntTy) : RedOp → Prop
  | .plus => t.signed = false ∨ t.bits ≤ 16
  | .multiplies => (t.signed = false ∧ 32 ≤ t.bits) ∨ t.bits ≤ 15 ∨ (t.signed = true ∧ t.bits ≤ 16)
  | .bitAnd | .bitOr | .bitXor => True

end Vir.Spec
