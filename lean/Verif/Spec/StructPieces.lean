/-!
# Where eight structs are loaded together
-/

namespace Vir.Spec

/-- When `for_each` goes through `n` structs with simdized structs of `size` lanes, it loads the eight structs from `b` on into one simdized
struct: in the main loop if `size` is eight, else in the epilogue, which goes through the rest in descending powers of two. -/
def EightAt (size n b : Nat) : Prop :=
  (size = 8 ∧ b % 8 = 0 ∧ b + 8 ≤ n) ∨ (8 < size ∧ 8 ≤ n % size % 16 ∧ b = n / size * size + n % size / 16 * 16)

end Vir.Spec
