import Verif.Lemmas.BitUtils

/-!
# C21: `bit_ceil` and `bit_floor`
-/

namespace Vir.Spec

/-- `r` is the smallest power of two that is not less than `x`. -/
def IsBitCeil (x r : Nat) : Prop := (∃ k, r = 2 ^ k) ∧ x ≤ r ∧ ∀ j, x ≤ 2 ^ j → r ≤ 2 ^ j

/-- `r` is the largest power of two that is not greater than `x`. -/
def IsBitFloor (x r : Nat) : Prop := (∃ k, r = 2 ^ k) ∧ r ≤ x ∧ ∀ j, 2 ^ j ≤ x → 2 ^ j ≤ r

end Vir.Spec

namespace Vir.BitUtils
open Spec

private theorem isBitCeil_of {x k : Nat} (h1 : x ≤ 2 ^ k) (h2 : 2 ^ k < 2 * x ∨ k = 0) : IsBitCeil x (2 ^ k) := by
  refine ⟨⟨k, rfl⟩, h1, fun j hj => ?_⟩
  rcases Nat.lt_or_ge j k with h | h
  · have : 2 ^ (j + 1) ≤ 2 ^ k := Nat.pow_le_pow_right (by decide) h
    rw [Nat.pow_succ] at this
    rcases h2 with h2 | rfl <;> omega
  · exact Nat.pow_le_pow_right (by decide) h

/-- **C21.** `vir::detail::bit_ceil(x)` in a `w`-bit unsigned type, for `0 < x ≤ 2^(w-1)`. -/
theorem detailBitCeil_spec {w x : Nat} (h0 : 0 < x) (hx : x ≤ 2 ^ (w - 1)) (hw : 0 < w) :
    ∃ r, detailBitCeil w x = .ok r ∧ IsBitCeil x r := by
  obtain ⟨k, h1, h2⟩ := exists_bracket h0
  have hkw : 2 ^ k ≤ 2 ^ (w - 1) := by omega
  have hk : k ≤ w - 1 := (Nat.pow_le_pow_iff_right (by decide)).1 hkw
  by_cases hxk : x = 2 ^ k
  · subst hxk
    refine ⟨2 ^ k, ?_, isBitCeil_of (Nat.le_refl _) (.inl (by omega))⟩
    unfold detailBitCeil bitCeilRec
    rw [dec_eq h0 (Nat.pow_lt_pow_right (by decide) (by omega)), two_pow_and_pred, if_pos rfl]
  · have hk1 : k < w - 1 := (Nat.pow_lt_pow_iff_right (a := 2) (by decide)).1 (by omega)
    refine ⟨2 ^ (k + 1), ?_, isBitCeil_of (by omega) (.inl (by rw [Nat.pow_succ]; omega))⟩
    exact bitCeilRec_eq (by omega) (by omega) (by omega) (by rw [Nat.pow_succ]; omega)

/-- **C21.** Outside that domain `vir::detail::bit_ceil` returns zero, which is not a power of two. -/
theorem detailBitCeil_outside {w x : Nat} (hx : x < 2 ^ (w + 1)) (h : x = 0 ∨ 2 ^ w < x) :
    detailBitCeil (w + 1) x = .ok 0 ∧ ¬ IsBitCeil x 0 := by
  refine ⟨?_, ?_⟩
  · rcases h with rfl | h
    · unfold detailBitCeil bitCeilRec; simp
    · exact bitCeilRec_wrap h hx (by rw [Nat.pow_succ]; omega)
  · rintro ⟨⟨k, hk⟩, _, _⟩
    have := Nat.two_pow_pos k
    omega

/-- **C21.** `vir::stdx::detail::bit_ceil(x)` for `x ≤ 2^63`, including `x = 0`; the loop ends within 64 iterations. -/
theorem simdBitCeil_spec {x : Nat} (hx : x ≤ 2 ^ 63) {fuel : Nat} (hf : 64 ≤ fuel) :
    ∃ r, simdBitCeil fuel x = .ok r ∧ IsBitCeil x r := by
  obtain ⟨j, h1, h2, h3⟩ := bitCeilLoop_eq (x := x) (fuel := fuel) (r := 0) (k := 63) (.inr rfl) (by decide) hx (by decide) (by omega)
  exact ⟨2 ^ j, h1, isBitCeil_of h2 h3⟩

/-- **C21.** For `x > 2^63` the loop of `vir::stdx::detail::bit_ceil` does not end within any number of iterations. -/
theorem simdBitCeil_diverges {x : Nat} (hx : 2 ^ 63 < x) (fuel : Nat) : simdBitCeil fuel x = .ub .diverge :=
  (bitCeilLoop_diverges hx fuel).2 0 (by decide)

/-- **C21.** `vir::stdx::detail::bit_floor(x)` for every `size_t` value `x > 0`. -/
theorem bitFloor_spec {x : Nat} (h0 : 0 < x) (hx : x < 2 ^ 64) : ∃ r, bitFloor x = .ok r ∧ IsBitFloor x r := by
  obtain ⟨k, h1, h2⟩ := exists_bracket h0
  have hk : k < 64 := (Nat.pow_lt_pow_iff_right (a := 2) (by decide)).1 (by omega)
  refine ⟨2 ^ k, bitFloor_pow h1 h2 hk, ⟨k, rfl⟩, h1, fun j hj => ?_⟩
  have : j < k + 1 := (Nat.pow_lt_pow_iff_right (a := 2) (by decide)).1 (by omega)
  exact Nat.pow_le_pow_right (by decide) (by omega)

/-- **C21.** `bit_floor(0)` is zero, as for `std::bit_floor`. -/
theorem bitFloor_zero : bitFloor 0 = .ok 0 := by decide

/-! ### the theorems are about something -/

example : detailBitCeil 32 9 = .ok 16 ∧ simdBitCeil 64 9 = .ok 16 ∧ bitFloor 13 = .ok 8 := by decide
example : detailBitCeil 8 200 = .ok 0 := by decide +kernel
example : (0 : Nat) < 9 ∧ 9 ≤ 2 ^ (32 - 1) ∧ (2 : Nat) ^ 7 < 200 ∧ 200 < 2 ^ 8 := by decide
example : ∃ x, 2 ^ 63 < x ∧ x < 2 ^ 64 := ⟨2 ^ 63 + 1, by decide, by decide⟩

/-! ## The theorems applied to concrete data -/

example := detailBitCeil_spec (w := 32) (x := 1000) (by decide) (by decide) (by decide)
example := detailBitCeil_outside (w := 31) (x := 2 ^ 31 + 5) (by decide) (Or.inr (by decide))
example := simdBitCeil_spec (x := 2 ^ 40 + 1) (fuel := 64) (by decide) (by decide)
example := simdBitCeil_diverges (x := 2 ^ 63 + 1) (by decide)
example := bitFloor_spec (x := 2 ^ 40 + 1) (by decide) (by decide)

end Vir.BitUtils
