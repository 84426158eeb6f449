import Verif.Model.Permute
import Verif.Model.CountIf
import Verif.Props.Casts

/-!
# The arithmetic of the language that the models use

No property of its own: these theorems pin down the integer conversions and additions that the models of the permutations, of `count_if`
and of the conversions share.
-/

namespace Vir

namespace Permute

/-- Conversion to `unsigned` keeps the value modulo `2^32`. -/
theorem toU32_spec (x : Int) : toU32 x < 2 ^ 32 ∧ ∃ q : Int, x = toU32 x + 2 ^ 32 * q := by
  unfold toU32
  exact ⟨by omega, x / 2 ^ 32, by omega⟩

/-- Conversion to `size_t` keeps the value modulo `2^64`. -/
theorem toU64_spec (x : Int) : toU64 x < 2 ^ 64 ∧ ∃ q : Int, x = toU64 x + 2 ^ 64 * q := by
  unfold toU64
  exact ⟨by omega, x / 2 ^ 64, by omega⟩

/-- Conversion to `int` keeps the value modulo `2^32`, as C++20 requires. -/
theorem toI32_spec (x : Nat) : -2 ^ 31 ≤ toI32 x ∧ toI32 x < 2 ^ 31 ∧ ∃ q : Int, (x : Int) = toI32 x + 2 ^ 32 * q := by
  unfold toI32
  split
  · exact ⟨by omega, by omega, (x : Int) / 2 ^ 32, by omega⟩
  · exact ⟨by omega, by omega, (x : Int) / 2 ^ 32 + 1, by omega⟩

example : toI32 (toU32 (-3)) = -3 ∧ toU32 (-1) = 4294967295 ∧ toI32 2147483648 = -2147483648 := by decide

end Permute

/-- Addition of `int`s is exact, and undefined exactly if the sum is not an `int`. -/
theorem CountIf.addInt_spec (a b r : Int) : CountIf.addInt a b = .ok r ↔ r = a + b ∧ -2 ^ 31 ≤ r ∧ r < 2 ^ 31 := by
  unfold CountIf.addInt
  split
  · constructor
    · intro h; injection h with h; omega
    · rintro ⟨rfl, -⟩; rfl
  · constructor
    · intro h; cases h
    · omega

example : CountIf.addInt (-2147483647) (-1) = .ok (-2147483648) ∧ CountIf.addInt 2147483647 1 = .ub .overflow := ⟨rfl, rfl⟩

/-- Different names are different types. -/
theorem Casts.arith_injective (dm : Casts.DataModel) (t u : Casts.IntName) (h : Casts.arith dm t = Casts.arith dm u) : t = u := by
  obtain ⟨a, b, c⟩ := dm
  revert h
  cases t <;> cases u <;> cases a <;> cases b <;>
    simp [Casts.arith, Casts.intTy, Casts.DataModel.size, Casts.DataModel.signed]

/-! ## The theorems applied to concrete data -/

example := Casts.arith_injective ⟨true, true, true⟩ .long .long rfl

end Vir
