import Verif.Model.BitUtils

namespace Vir.BitUtils

theorem dec_eq {w x : Nat} (h0 : 0 < x) (h : x < 2 ^ w) : dec w x = x - 1 := by
  unfold dec
  have : x + (2 ^ w - 1) = (x - 1) + 2 ^ w := by omega
  rw [this, Nat.add_mod_right, Nat.mod_eq_of_lt (by omega)]

/-- Clearing the lowest bit keeps the top bit unless the number is a power of two. -/
theorem and_pred {x k : Nat} (h1 : 2 ^ k < x) (h2 : x < 2 ^ (k + 1)) : 2 ^ k ≤ x &&& (x - 1) ∧ x &&& (x - 1) < x := by
  constructor
  · apply Nat.ge_two_pow_of_testBit
    rw [Nat.testBit_and, Nat.testBit_of_two_pow_le_and_two_pow_add_one_gt (by omega) h2,
      Nat.testBit_of_two_pow_le_and_two_pow_add_one_gt (by omega) (by omega)]
    rfl
  · exact Nat.lt_of_le_of_lt Nat.and_le_right (by omega)

theorem two_pow_and_pred (k : Nat) : 2 ^ k &&& (2 ^ k - 1) = 0 := by
  apply Nat.eq_of_testBit_eq
  intro i
  rw [Nat.testBit_and, Nat.testBit_two_pow, Nat.testBit_two_pow_sub_one, Nat.zero_testBit]
  by_cases h : k = i
  · subst h; simp
  · simp [h]

theorem exists_bracket {x : Nat} (h : 0 < x) : ∃ k, 2 ^ k ≤ x ∧ x < 2 ^ (k + 1) :=
  ⟨x.log2, Nat.log2_self_le (by omega), Nat.lt_log2_self⟩

theorem bitFloorLoop_eq {fuel x k : Nat} (h1 : 2 ^ k ≤ x) (h2 : x < 2 ^ (k + 1)) (hk : k < 64) (hf : x < fuel) :
    bitFloorLoop fuel x = .ok (2 ^ k) := by
  have hp := Nat.two_pow_pos k
  have h64 : x < 2 ^ 64 := Nat.lt_of_lt_of_le h2 (Nat.pow_le_pow_right (by decide) (by omega))
  induction fuel generalizing x with
  | zero => omega
  | succ fuel ih =>
    unfold bitFloorLoop
    simp only [dec_eq (by omega : 0 < x) h64]
    by_cases hx : x = 2 ^ k
    · subst hx; simp
    · obtain ⟨h3, h4⟩ := and_pred (x := x) (k := k) (by omega) h2
      rw [if_pos (by omega)]
      exact ih h3 (by omega) (by omega) (by omega)

theorem bitFloor_pow {x k : Nat} (h1 : 2 ^ k ≤ x) (h2 : x < 2 ^ (k + 1)) (hk : k < 64) : bitFloor x = .ok (2 ^ k) :=
  bitFloorLoop_eq h1 h2 hk (by omega)

/-- One step of the recursive `bit_ceil`. -/
theorem ceil_step {x k : Nat} (h1 : 2 ^ k < x) (h2 : x < 2 ^ (k + 1)) :
    x < (x ||| (x >>> 1)) + 1 ∧ (x ||| (x >>> 1)) + 1 ≤ 2 ^ (k + 1) := by
  constructor
  · have : x ≤ x ||| (x >>> 1) := Nat.left_le_or
    omega
  · have : x >>> 1 < 2 ^ (k + 1) := by
      rw [Nat.shiftRight_eq_div_pow]; omega
    have := Nat.or_lt_two_pow h2 this
    omega

theorem bitCeilRec_eq {w fuel x k : Nat} (h1 : 2 ^ k < x) (h2 : x ≤ 2 ^ (k + 1)) (hk : k + 1 < w)
    (hf : 2 ^ (k + 1) - x < fuel) : bitCeilRec w fuel x = .ok (2 ^ (k + 1)) := by
  have hp := Nat.two_pow_pos k
  have hw : 2 ^ (k + 1) < 2 ^ w := Nat.pow_lt_pow_right (by decide) hk
  induction fuel generalizing x with
  | zero => omega
  | succ fuel ih =>
    unfold bitCeilRec
    rw [dec_eq (by omega) (by omega)]
    by_cases hx : x = 2 ^ (k + 1)
    · subst hx; simp
    · obtain ⟨h3, h4⟩ := and_pred (x := x) (k := k) h1 (by omega)
      obtain ⟨h5, h6⟩ := ceil_step (x := x) (k := k) h1 (by omega)
      rw [if_neg (by omega), Nat.mod_eq_of_lt (by omega)]
      exact ih (by omega) h6 (by omega)

/-- Above the largest power of two the recursion wraps to zero. -/
theorem bitCeilRec_wrap {w fuel x : Nat} (h1 : 2 ^ w < x) (h2 : x < 2 ^ (w + 1))
    (hf : 2 ^ (w + 1) - x < fuel) : bitCeilRec (w + 1) (fuel + 1) x = .ok 0 := by
  have hp := Nat.two_pow_pos w
  induction fuel generalizing x with
  | zero => omega
  | succ fuel ih =>
    unfold bitCeilRec
    rw [dec_eq (by omega) (by omega)]
    obtain ⟨h3, h4⟩ := and_pred (x := x) (k := w) h1 (by omega)
    obtain ⟨h5, h6⟩ := ceil_step (x := x) (k := w) h1 (by omega)
    rw [if_neg (by omega)]
    rcases Nat.lt_or_eq_of_le h6 with h | h
    · rw [Nat.mod_eq_of_lt h]
      exact ih (by omega) h (by omega)
    · rw [h, Nat.mod_self]
      unfold bitCeilRec
      simp

theorem bitCeilLoop_eq {x fuel r k : Nat} (hr : 2 ^ r < 2 * x ∨ r = 0) (hk : k < 64) (hx : x ≤ 2 ^ k) (hrk : r ≤ k)
    (hf : k < r + fuel) : ∃ j, bitCeilLoop x fuel (2 ^ r) = .ok (2 ^ j) ∧ x ≤ 2 ^ j ∧ (2 ^ j < 2 * x ∨ j = 0) := by
  induction fuel generalizing r with
  | zero => omega
  | succ fuel ih =>
    unfold bitCeilLoop
    by_cases h : 2 ^ r < x
    · rw [if_pos h, Nat.shiftLeft_eq]
      have hlt : 2 ^ r < 2 ^ k := by omega
      have hrk : r < k := (Nat.pow_lt_pow_iff_right (by decide)).1 hlt
      have e : 2 ^ r * 2 ^ 1 % 2 ^ 64 = 2 ^ (r + 1) := by
        rw [← Nat.pow_add, Nat.mod_eq_of_lt (Nat.pow_lt_pow_right (by decide) (by omega))]
      rw [e]
      exact ih (.inl (by rw [Nat.pow_succ]; omega)) (by omega) (by omega)
    · rw [if_neg h]
      exact ⟨r, rfl, by omega, hr⟩

/-- For arguments above `2^63` the loop never ends. -/
theorem bitCeilLoop_diverges {x : Nat} (hx : 2 ^ 63 < x) (fuel : Nat) :
    bitCeilLoop x fuel 0 = .ub .diverge ∧ ∀ r, r < 64 → bitCeilLoop x fuel (2 ^ r) = .ub .diverge := by
  induction fuel with
  | zero => exact ⟨rfl, fun _ _ => rfl⟩
  | succ fuel ih =>
    constructor
    · unfold bitCeilLoop
      rw [if_pos (by omega)]
      simpa using ih.1
    · intro r hr
      have h1 : 2 ^ r ≤ 2 ^ 63 := Nat.pow_le_pow_right (by decide) (by omega)
      unfold bitCeilLoop
      rw [if_pos (by omega), Nat.shiftLeft_eq, ← Nat.pow_add]
      by_cases h : r = 63
      · subst h; simpa using ih.1
      · rw [Nat.mod_eq_of_lt (Nat.pow_lt_pow_right (by decide) (by omega))]
        exact ih.2 (r + 1) (by omega)

end Vir.BitUtils
