import Verif.Outcome

/-! # Index functions without zeros -/

namespace Vir.Spec

/-- For an input of `size` lanes and a result of `n` lanes the index function `f` selects lane `g i` of the input for lane `i`: as a
number counted from the first lane, or as a negative number counted from one past the last lane. -/
def Selects (f : Nat → Nat → Outcome Int) (size n : Nat) (g : Nat → Nat) : Prop :=
  ∀ i, i < n → g i < size ∧ (f i size = .ok (g i : Int) ∨ f i size = .ok ((g i : Int) - size))

end Vir.Spec
