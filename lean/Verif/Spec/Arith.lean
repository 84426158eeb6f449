import Verif.Model.CInt

/-!
# Specification of lanewise integer arithmetic

What a user expects of `x op y` on one lane of type `t`: the mathematical result modulo `2 ^ bits`, as a value of the
type; and exactly when the operation is undefined.
-/

namespace Vir.Spec

/-- The integer types of the platform: narrow types have at most 16 bits, the others at least 32. -/
def ValidTy (t : IntTy) : Prop := 0 < t.bits ∧ (t.bits ≤ 16 ∨ 32 ≤ t.bits)

/-- Bit `j` of an integer in two's complement. -/
def bitOf (x : Int) (j : Nat) : Bool := x / 2 ^ j % 2 = 1

/-- The value `r` of the type is congruent to the mathematical result `x`. -/
def IsWrapped (t : IntTy) (x r : Int) : Prop := t.Has r ∧ (2 : Int) ^ t.bits ∣ r - x

/-- The result of a binary operator on two values of type `t`. -/
def IsResult (t : IntTy) : BinOp → Int → Int → Int → Prop
  | .add, a, b, r => IsWrapped t (a + b) r
  | .sub, a, b, r => IsWrapped t (a - b) r
  | .mul, a, b, r => IsWrapped t (a * b) r
  | .div, a, b, r => IsWrapped t (a.tdiv b) r
  | .mod, a, b, r => r = a.tmod b
  | .and, a, b, r => t.Has r ∧ ∀ j < t.bits, bitOf r j = (bitOf a j && bitOf b j)
  | .or, a, b, r => t.Has r ∧ ∀ j < t.bits, bitOf r j = (bitOf a j || bitOf b j)
  | .xor, a, b, r => t.Has r ∧ ∀ j < t.bits, bitOf r j = (bitOf a j ^^ bitOf b j)
  | .shl, a, b, r => IsWrapped t (a * 2 ^ b.toNat) r
  | .shr, a, b, r => r = a / 2 ^ b.toNat

/-- The operation is undefined: overflow of a signed type with at least 32 bits, division by zero, `lowest / -1` for
such a type, a shift count outside the promoted type; and, because of the promotion to `int`, a product of narrow
values that does not fit `int`. -/
def IsUndefined (t : IntTy) : BinOp → Int → Int → Prop
  | .add, a, b => t.signed = true ∧ 32 ≤ t.bits ∧ ¬ t.Has (a + b)
  | .sub, a, b => t.signed = true ∧ 32 ≤ t.bits ∧ ¬ t.Has (a - b)
  | .mul, a, b => (t.signed = true ∧ 32 ≤ t.bits ∧ ¬ t.Has (a * b)) ∨ (t.bits < 32 ∧ 2 ^ 31 ≤ a * b)
  | .div, a, b | .mod, a, b => b = 0 ∨ (t.signed = true ∧ 32 ≤ t.bits ∧ a = t.lowest ∧ b = -1)
  | .and, _, _ | .or, _, _ | .xor, _, _ => False
  | .shl, _, b | .shr, _, b => b < 0 ∨ (if t.bits < 32 then 32 else t.bits) ≤ b

/-- All lanes are values of the type. -/
def LanesOf (t : IntTy) (x : List Int) : Prop := ∀ a ∈ x, t.Has a

/-- Lane `i` of `r` is related to lane `i` of `x` and of `y`. -/
def OnLanes {α β γ : Type} (R : α → β → γ → Prop) (x : List α) (y : List β) (r : List γ) : Prop :=
  r.length = x.length ∧
    ∀ (i : Nat) (a : α) (b : β) (c : γ), x[i]? = some a → y[i]? = some b → r[i]? = some c → R a b c

/-- The operation is undefined on some lane. -/
def SomeUndefined (t : IntTy) (op : BinOp) (x y : List Int) : Prop :=
  ∃ (i : Nat) (a b : Int), x[i]? = some a ∧ y[i]? = some b ∧ IsUndefined t op a b

/-- Meaning of a comparison operator. -/
def cmpHolds : CmpOp → Int → Int → Prop
  | .eq, x, y => x = y
  | .ne, x, y => x ≠ y
  | .lt, x, y => x < y
  | .le, x, y => x ≤ y
  | .gt, x, y => y < x
  | .ge, x, y => y ≤ x

end Vir.Spec
