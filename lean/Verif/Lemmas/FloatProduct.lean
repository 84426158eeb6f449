import Verif.Lemmas.FloatSum
import Mathlib.Algebra.Order.Floor.Ring
import Mathlib.Data.Rat.Floor

/-! Rounding errors of products. -/

namespace Vir.FloatSum
open Spec Convert

/-- A number in the range of the format lies between two values that are close to each other. -/
theorem bracket_real {f : FloatTy} (hf : 0 < f.digits ∧ f.digits < f.emax ∧ 3 ≤ f.emax) {x : ℚ} (h0 : 0 ≤ x) (hx : x ≤ f.max) :
    ∃ L H, FloatValue f L ∧ FloatValue f H ∧ L ≤ x ∧ x ≤ H ∧
      (H - L ≤ 2 ^ ((1 : ℤ) - f.digits) * x ∨ H - L ≤ 2 ^ ((3 : ℤ) - f.emax - f.digits)) := by
  obtain ⟨p, hp⟩ : ∃ p, f.digits = p + 1 := ⟨f.digits - 1, by omega⟩
  set em : ℤ := (3 : ℤ) - f.emax - f.digits with hem
  have two : (2 : ℚ) ≠ 0 := by norm_num
  have hpos : ∀ z : ℤ, (0 : ℚ) < 2 ^ z := fun z => zpow_pos (by norm_num) z
  obtain ⟨n, hn1, hn2⟩ : ∃ n : ℕ, (n : ℚ) * 2 ^ em ≤ x ∧ x < (n + 1) * 2 ^ em := by
    refine ⟨⌊x / 2 ^ em⌋₊, ?_, ?_⟩
    · exact (le_div_iff₀ (hpos em)).1 (Nat.floor_le (div_nonneg h0 (hpos em).le))
    · exact (div_lt_iff₀ (hpos em)).1 (Nat.lt_floor_add_one _)
  have hval (m : ℕ) (j : ℕ) (hm : m ≤ 2 ^ f.digits) (he : em + j + 1 ≤ f.emax - f.digits) : FloatValue f (m * 2 ^ (em + j)) := by
    by_cases h : m < 2 ^ f.digits
    · exact ⟨m, em + j, by rw [abs_of_nonneg (by positivity)]; exact_mod_cast h, by omega, by omega, by push_cast; rfl⟩
    · have hme : m = 2 ^ p * 2 := by rw [← pow_succ, ← hp]; omega
      refine ⟨2 ^ p, em + j + 1, ?_, by omega, he, ?_⟩
      · rw [abs_of_nonneg (by positivity), hp, pow_succ]
        have : (0 : ℤ) < 2 ^ p := by positivity
        omega
      · rw [hme, zpow_add_one₀ two]; push_cast; ring
  by_cases hs : n < 2 ^ f.digits
  · refine ⟨n * 2 ^ em, (n + 1) * 2 ^ em, ?_, ?_, hn1, hn2.le, .inr (by linarith)⟩
    · have := hval n 0 hs.le (by omega)
      simpa using this
    · have := hval (n + 1) 0 hs (by omega)
      simpa using this
  have h2p : 2 ^ f.digits ≤ n := by omega
  have hn0 : n ≠ 0 := by have := Nat.two_pow_pos f.digits; omega
  obtain ⟨j, hj⟩ : ∃ j, Nat.log2 n = p + j := ⟨Nat.log2 n - p, by
    have : f.digits ≤ Nat.log2 n := (Nat.le_log2 hn0).2 h2p
    omega⟩
  have hlo : 2 ^ (p + j) ≤ n := hj ▸ Nat.log2_self_le hn0
  have hhi : n < 2 ^ (p + j + 1) := hj ▸ Nat.lt_log2_self
  set q := n / 2 ^ j with hq
  have hjp : 0 < 2 ^ j := Nat.two_pow_pos j
  have hq2 : q < 2 ^ f.digits := by
    rw [hq, Nat.div_lt_iff_lt_mul hjp, ← pow_add, hp, show p + 1 + j = p + j + 1 by omega]; exact hhi
  have hql : q * 2 ^ j ≤ n := Nat.div_mul_le_self n _
  have hqh : n + 1 ≤ (q + 1) * 2 ^ j := by
    have := Nat.lt_div_mul_add hjp (a := n); rw [hq, Nat.add_mul]; omega
  have hmax : f.max < 2 ^ (f.emax : ℤ) := by
    unfold FloatTy.max
    have e1 : (2 : ℚ) ^ (f.emax : ℤ) = 2 ^ f.digits * 2 ^ (f.emax - f.digits) := by
      rw [zpow_natCast, ← pow_add]; congr 1; omega
    have := pow_pos (by norm_num : (0 : ℚ) < 2) (f.emax - f.digits)
    rw [e1]; nlinarith
  have hexp : em + j ≤ f.emax - f.digits := by
    have h1 : (2 : ℚ) ^ ((p : ℤ) + j + em) ≤ n * 2 ^ em := by
      rw [zpow_add₀ two]
      refine mul_le_mul_of_nonneg_right ?_ (hpos em).le
      have : ((2 ^ (p + j) : ℕ) : ℚ) ≤ n := by exact_mod_cast hlo
      push_cast at this
      rw [show ((p : ℤ) + j) = ((p + j : ℕ) : ℤ) by push_cast; rfl, zpow_natCast]
      exact this
    have h2 : (2 : ℚ) ^ ((p : ℤ) + j + em) < 2 ^ (f.emax : ℤ) := lt_of_le_of_lt (h1.trans (hn1.trans hx)) hmax
    have h3 := (zpow_lt_zpow_iff_right₀ (by norm_num : (1 : ℚ) < 2)).1 h2
    omega
  have hscale (m : ℕ) : ((m * 2 ^ j : ℕ) : ℚ) * 2 ^ em = m * 2 ^ (em + j) := by
    push_cast
    rw [zpow_add₀ two, zpow_natCast]; ring
  have hL : FloatValue f (q * 2 ^ (em + j)) :=
    ⟨q, em + j, by rw [abs_of_nonneg (by positivity)]; exact_mod_cast hq2, by omega, hexp, by push_cast; rfl⟩
  have hLx : (q : ℚ) * 2 ^ (em + j) ≤ x := by
    rw [← hscale]
    exact le_trans (mul_le_mul_of_nonneg_right (by exact_mod_cast hql) (hpos em).le) hn1
  have hHx : x < ((q + 1 : ℕ) : ℚ) * 2 ^ (em + j) := by
    rw [← hscale]
    refine lt_of_lt_of_le hn2 (mul_le_mul_of_nonneg_right ?_ (hpos em).le)
    have : ((n + 1 : ℕ) : ℚ) ≤ (((q + 1) * 2 ^ j : ℕ) : ℚ) := by exact_mod_cast hqh
    simpa using this
  by_cases hexact : (q : ℚ) * 2 ^ (em + j) = x
  · refine ⟨_, _, hL, hL, hexact.le, hexact.ge, .inl ?_⟩
    rw [sub_self]
    exact mul_nonneg (hpos _).le h0
  have hH : FloatValue f ((q + 1 : ℕ) * 2 ^ (em + j)) := by
    by_cases hqq : q + 1 < 2 ^ f.digits
    · exact ⟨(q + 1 : ℕ), em + j, by rw [abs_of_nonneg (by positivity)]; exact_mod_cast hqq, by omega, hexp, by push_cast; rfl⟩
    · refine hval _ _ (by omega) ?_
      by_contra hc
      have he : em + j = f.emax - f.digits := by omega
      apply hexact
      refine le_antisymm hLx (hx.trans (le_of_eq ?_))
      rw [he]
      unfold FloatTy.max
      have : (q : ℚ) = 2 ^ f.digits - 1 := by
        have h5 : q + 1 = 2 ^ f.digits := by omega
        have h6 : ((q + 1 : ℕ) : ℚ) = 2 ^ f.digits := by rw [h5]; push_cast; rfl
        push_cast at h6; linarith
      rw [this]
      congr 1
      rw [← zpow_natCast]; congr 1; omega
  refine ⟨_, _, hL, hH, hLx, hHx.le, .inl ?_⟩
  have e1 : ((q + 1 : ℕ) : ℚ) * 2 ^ (em + j) - q * 2 ^ (em + j) = 2 ^ (em + j) := by push_cast; ring
  rw [e1]
  have h1 : ((2 ^ (p + j) : ℕ) : ℚ) ≤ n := by exact_mod_cast hlo
  push_cast at h1
  have h2 : (2 : ℚ) ^ (em + j) = 2 ^ ((1 : ℤ) - f.digits) * (2 ^ (p + j) * 2 ^ em) := by
    rw [← zpow_natCast, ← zpow_add₀ two, ← zpow_add₀ two]; congr 1; rw [hp]; push_cast; ring
  rw [h2]
  refine mul_le_mul_of_nonneg_left (le_trans ?_ hn1) (hpos _).le
  exact mul_le_mul_of_nonneg_right h1 (hpos em).le

/-- The same for both signs. -/
theorem bracket_abs {f : FloatTy} (hf : 0 < f.digits ∧ f.digits < f.emax ∧ 3 ≤ f.emax) {x : ℚ} (hx : |x| ≤ f.max) :
    ∃ L H, FloatValue f L ∧ FloatValue f H ∧ L ≤ x ∧ x ≤ H ∧
      (H - L ≤ 2 ^ ((1 : ℤ) - f.digits) * |x| ∨ H - L ≤ 2 ^ ((3 : ℤ) - f.emax - f.digits)) := by
  obtain ⟨L, H, h1, h2, h3, h4, h5⟩ := bracket_real hf (abs_nonneg x) hx
  rcases abs_cases x with ⟨h, -⟩ | ⟨h, -⟩
  · rw [h] at h3 h4
    exact ⟨L, H, h1, h2, h3, h4, h5⟩
  · rw [h] at h3 h4
    exact ⟨-H, -L, h2.neg, h1.neg, by linarith, by linarith, by rcases h5 with h5 | h5 <;> [left; right] <;> linarith⟩

theorem round_any {f : FloatTy} (hf : StandardFloat f) {rnd : ℚ → ℚ} (hr : RoundsTo f rnd) {x : ℚ} (hx : |x| ≤ f.max) :
    |rnd x - x| ≤ 2 ^ ((1 : ℤ) - f.digits) * |x| + 2 ^ ((3 : ℤ) - f.emax - f.digits) := by
  obtain ⟨L, H, h1, h2, h3, h4, h5⟩ := bracket_abs ⟨hf.1, hf.2.1, le_trans (by norm_num) hf.2.2⟩ hx
  have h6 := hr.2.1 _ _ h3
  have h7 := hr.2.1 _ _ h4
  rw [hr.1 _ h1] at h6
  rw [hr.1 _ h2] at h7
  have p1 : (0 : ℚ) < 2 ^ ((3 : ℤ) - f.emax - f.digits) := zpow_pos (by norm_num) _
  have p2 : (0 : ℚ) ≤ 2 ^ ((1 : ℤ) - f.digits) * |x| := mul_nonneg (zpow_pos (by norm_num) _).le (abs_nonneg _)
  rw [abs_le]
  rcases h5 with h5 | h5 <;> constructor <;> linarith

theorem round_nearest {f : FloatTy} (hf : StandardFloat f) {rnd : ℚ → ℚ} (hr : RoundsToNearest f rnd) {x : ℚ} (hx : |x| ≤ f.max) :
    |rnd x - x| ≤ 2 ^ (-(f.digits : ℤ)) * |x| + 2 ^ ((2 : ℤ) - f.emax - f.digits) := by
  obtain ⟨L, H, h1, h2, h3, h4, h5⟩ := bracket_abs ⟨hf.1, hf.2.1, le_trans (by norm_num) hf.2.2⟩ hx
  have h6 := hr.2 x L h1
  have h7 := hr.2 x H h2
  rw [abs_of_nonpos (by linarith : L - x ≤ 0)] at h6
  rw [abs_of_nonneg (by linarith : 0 ≤ H - x)] at h7
  have e : (2 : ℚ) ^ ((1 : ℤ) - f.digits) = 2 * 2 ^ (-(f.digits : ℤ)) := by
    rw [sub_eq_add_neg, zpow_add₀ (by norm_num : (2 : ℚ) ≠ 0), zpow_one]
  have e2 : (2 : ℚ) ^ ((3 : ℤ) - f.emax - f.digits) = 2 * 2 ^ ((2 : ℤ) - f.emax - f.digits) := by
    rw [show (3 : ℤ) - f.emax - f.digits = 1 + (2 - f.emax - f.digits) by ring, zpow_add₀ (by norm_num : (2 : ℚ) ≠ 0), zpow_one]
  have p1 : (0 : ℚ) < 2 ^ ((2 : ℤ) - f.emax - f.digits) := zpow_pos (by norm_num) _
  have p2 : (0 : ℚ) ≤ 2 ^ (-(f.digits : ℤ)) * |x| := mul_nonneg (zpow_pos (by norm_num) _).le (abs_nonneg _)
  rw [e, e2] at h5
  rcases h5 with h5 | h5 <;> linarith

end Vir.FloatSum
