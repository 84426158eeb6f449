import Verif.Model.CInt

/-!
# Sums of C++ integers
-/

namespace Vir.Spec

/-- A partial operation on values that may be undefined: undefined as soon as an operand is. -/
def strict2 {β : Type} (f : β → β → Outcome β) (x y : Outcome β) : Outcome β := do
  let a ← x
  let b ← y
  f a b

/-- `+` on operands of type `t`, converted back to `t` (the lanes of `simd<t> + simd<t>`, C50). -/
def plusOp (t : IntTy) : Outcome Int → Outcome Int → Outcome Int := strict2 (BinOp.eval t .add)

/-- Whatever elements are picked, their mathematical sum is a value of the type. -/
def SubSumsFit (t : IntTy) (xs : List Int) : Prop := ∀ ys : List Int, ys.Sublist xs → t.Has ys.sum

/-- Sums in this type never overflow: unsigned types wrap, types narrower than `int` (8 or 16 bits) are added as `int` and wrap when
converted back. -/
def WrapsAround (t : IntTy) : Prop := (t.signed = false ∧ 32 ≤ t.bits) ∨ (0 < t.bits ∧ t.bits ≤ 16)

end Vir.Spec
