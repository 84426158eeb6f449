/-!
# Masked lanes and orders
-/

namespace Vir.Spec

variable {α : Type}

/-- The lanes of `v` whose mask bit is set, in order. -/
def selected (k : List Bool) (v : List α) : List α :=
  (k.zip v).filterMap fun (b, x) => if b then some x else none

/-- `lt` is a strict weak order, as `<` on integers and on floating-point values other than NaN. -/
structure StrictWeak (lt : α → α → Bool) : Prop where
  asymm : ∀ a b, lt a b = true → lt b a = false
  negTrans : ∀ a b c, lt a b = false → lt b c = false → lt a c = false

/-- `x` is one of `xs` and none of `xs` is less. -/
def IsLeast (lt : α → α → Bool) (xs : List α) (x : α) : Prop := x ∈ xs ∧ ∀ y ∈ xs, lt y x = false

/-- `x` is one of `xs` and none of `xs` is greater. -/
def IsGreatest (lt : α → α → Bool) (xs : List α) (x : α) : Prop := x ∈ xs ∧ ∀ y ∈ xs, lt x y = false

/-- `<` of binary32 on bit patterns: false if one operand is NaN, else the order of the sign-magnitude values. -/
def f32lt (a b : BitVec 32) : Bool :=
  let nan (x : BitVec 32) : Bool := decide ((x &&& 0x7fffffff#32).toNat > 0x7f800000)
  let key (x : BitVec 32) : Int := if x.msb then -((x &&& 0x7fffffff#32).toNat : Int) else (x.toNat : Int)
  !nan a && !nan b && decide (key a < key b)

end Vir.Spec
