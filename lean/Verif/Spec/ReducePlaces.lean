import Verif.Spec.ArrayPlaces

/-!
# Specification of `transform_reduce` on arrays of structs whose loads may permute the lanes
-/

namespace Vir.Spec
open TransformArrays

variable {α β : Type}

/-- The values that are combined: at offset `j` of the eight elements from `b` on, for every `b` in `eights`, `g` of the elements at offset
`3 * j % 8` of the inputs that are loaded unordered and of the elements at offset `j` of the other inputs. At every other position
`g` of the elements at this position. -/
structure RowPlaces (ins : List Range) (n : Nat) (arrays : List (List α)) (g : List (List α) → β) (eights : Nat → Prop) (row : Nat → β) :
    Prop where
  permuted : ∀ b j, eights b → j < 8 → row (b + j) =
    g (ins.map fun I => structAt (contents arrays I) I.c (b + if Simdize.Unordered (I.F.env 8) then 3 * j % 8 else j))
  other : ∀ i < n, (∀ b, eights b → i < b ∨ b + 8 ≤ i) → row i = g (ins.map fun I => structAt (contents arrays I) I.c i)

/-- Which blocks of eight elements are loaded together from a range of `n` elements. -/
def EightsOf (e : Env) (n : Nat) (eights : Nat → Prop) : Prop :=
  EightsOk n eights ∧ (StartsAligned e → ∀ b, eights b ↔ EightAt e.size n b) ∧
    ∃ p ≤ n, LeadIn e p ∧ (n ≠ 0 → AsksAligned e → e.al e.size ∣ e.addr + p * e.sz) ∧ ∀ b, eights b ↔ EightFrom e.size n p b

end Vir.Spec
