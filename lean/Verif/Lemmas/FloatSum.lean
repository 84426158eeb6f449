import Verif.Spec.FloatSum
import Verif.Lemmas.GSum
import Mathlib.Tactic.Linarith
import Mathlib.Tactic.Positivity
import Mathlib.Tactic.Ring
import Mathlib.Algebra.Order.BigOperators.Group.List

/-! Rounding errors of additions and of generalized sums. -/

namespace Vir.FloatSum
open Spec Convert

theorem _root_.Vir.Spec.FloatValue.neg {f : FloatTy} {q : ℚ} (h : FloatValue f q) : FloatValue f (-q) := by
  obtain ⟨m, e, h1, h2, h3, rfl⟩ := h
  exact ⟨-m, e, by rwa [abs_neg], h2, h3, by push_cast; ring⟩

/-- A value is an integer times the smallest power of two. -/
theorem value_grid {f : FloatTy} {q : ℚ} (h : FloatValue f q) : ∃ n : ℤ, q = n * 2 ^ ((3 : ℤ) - f.emax - f.digits) := by
  obtain ⟨m, e, -, h2, -, rfl⟩ := h
  refine ⟨m * 2 ^ (e - (3 - f.emax - f.digits)).toNat, ?_⟩
  push_cast
  rw [mul_assoc, ← zpow_natCast, ← zpow_add₀ (by norm_num : (2 : ℚ) ≠ 0)]
  congr 2
  omega

/-- A point of the grid in the range of the format lies between two values that are close to each other. -/
theorem bracket_nat {f : FloatTy} (hf : 0 < f.digits ∧ f.digits < f.emax) (n : ℕ)
    (hn : (n : ℚ) * 2 ^ ((3 : ℤ) - f.emax - f.digits) ≤ f.max) :
    ∃ L H, FloatValue f L ∧ FloatValue f H ∧ L ≤ (n : ℚ) * 2 ^ ((3 : ℤ) - f.emax - f.digits) ∧
      (n : ℚ) * 2 ^ ((3 : ℤ) - f.emax - f.digits) ≤ H ∧
      H - L ≤ 2 ^ ((1 : ℤ) - f.digits) * ((n : ℚ) * 2 ^ ((3 : ℤ) - f.emax - f.digits)) := by
  obtain ⟨p, hp⟩ : ∃ p, f.digits = p + 1 := ⟨f.digits - 1, by omega⟩
  set em : ℤ := (3 : ℤ) - f.emax - f.digits with hem
  have two : (2 : ℚ) ≠ 0 := by norm_num
  have hpos : ∀ z : ℤ, (0 : ℚ) < 2 ^ z := fun z => zpow_pos (by norm_num) z
  have hex {x : ℚ} (hx : FloatValue f x) (he : (n : ℚ) * 2 ^ em = x) :
      ∃ L H, FloatValue f L ∧ FloatValue f H ∧ L ≤ (n : ℚ) * 2 ^ em ∧ (n : ℚ) * 2 ^ em ≤ H ∧
        H - L ≤ 2 ^ ((1 : ℤ) - f.digits) * ((n : ℚ) * 2 ^ em) := by
    refine ⟨x, x, hx, hx, he.ge, he.le, ?_⟩
    rw [sub_self]
    have := hpos em; have := hpos ((1 : ℤ) - f.digits)
    positivity
  by_cases hs : n < 2 ^ f.digits
  · exact hex ⟨n, em, by rw [abs_of_nonneg (by positivity)]; exact_mod_cast hs, le_refl _, by omega, by push_cast; rfl⟩ rfl
  have h2p : 2 ^ f.digits ≤ n := by omega
  have hn0 : n ≠ 0 := by have := Nat.two_pow_pos f.digits; omega
  obtain ⟨j, hj⟩ : ∃ j, Nat.log2 n = p + j := ⟨Nat.log2 n - p, by
    have : f.digits ≤ Nat.log2 n := (Nat.le_log2 hn0).2 h2p
    omega⟩
  have hlo : 2 ^ (p + j) ≤ n := hj ▸ Nat.log2_self_le hn0
  have hhi : n < 2 ^ (p + j + 1) := hj ▸ Nat.lt_log2_self
  set q := n / 2 ^ j with hq
  have hjp : 0 < 2 ^ j := Nat.two_pow_pos j
  have hq2 : q < 2 ^ f.digits := by
    rw [hq, Nat.div_lt_iff_lt_mul hjp, ← pow_add, hp, show p + 1 + j = p + j + 1 by omega]; exact hhi
  have hql : q * 2 ^ j ≤ n := Nat.div_mul_le_self n _
  have hqh : n < (q + 1) * 2 ^ j := by
    have := Nat.lt_div_mul_add hjp (a := n); rw [hq, Nat.add_mul]; omega
  -- the exponent is in range
  have hmax : f.max < 2 ^ (f.emax : ℤ) := by
    unfold FloatTy.max
    have e1 : (2 : ℚ) ^ (f.emax : ℤ) = 2 ^ f.digits * 2 ^ (f.emax - f.digits) := by
      rw [zpow_natCast, ← pow_add]; congr 1; omega
    have := pow_pos (by norm_num : (0 : ℚ) < 2) (f.emax - f.digits)
    rw [e1]; nlinarith
  have hexp : em + j ≤ f.emax - f.digits := by
    have h1 : (2 : ℚ) ^ ((p : ℤ) + j + em) ≤ n * 2 ^ em := by
      rw [zpow_add₀ two]
      refine mul_le_mul_of_nonneg_right ?_ (hpos em).le
      have : ((2 ^ (p + j) : ℕ) : ℚ) ≤ n := by exact_mod_cast hlo
      push_cast at this
      rw [show ((p : ℤ) + j) = ((p + j : ℕ) : ℤ) by push_cast; rfl, zpow_natCast]
      exact this
    have h2 : (2 : ℚ) ^ ((p : ℤ) + j + em) < 2 ^ (f.emax : ℤ) := lt_of_le_of_lt (h1.trans hn) hmax
    have h3 := (zpow_lt_zpow_iff_right₀ (by norm_num : (1 : ℚ) < 2)).1 h2
    omega
  have hscale (m : ℕ) : ((m * 2 ^ j : ℕ) : ℚ) * 2 ^ em = m * 2 ^ (em + j) := by
    push_cast
    rw [zpow_add₀ two, zpow_natCast]; ring
  have hL : FloatValue f ((q * 2 ^ j : ℕ) * 2 ^ em) := by
    rw [hscale]
    exact ⟨q, em + j, by rw [abs_of_nonneg (by positivity)]; exact_mod_cast hq2, by omega, hexp, by push_cast; rfl⟩
  by_cases hexact : q * 2 ^ j = n
  · exact hex hL (by rw [hexact])
  have hH : FloatValue f (((q + 1) * 2 ^ j : ℕ) * 2 ^ em) := by
    rw [hscale]
    by_cases hqq : q + 1 < 2 ^ f.digits
    · exact ⟨(q + 1 : ℕ), em + j, by rw [abs_of_nonneg (by positivity)]; exact_mod_cast hqq, by omega, hexp, by push_cast; rfl⟩
    · have hqe : q + 1 = 2 ^ p * 2 := by rw [← pow_succ, ← hp]; omega
      have hne : em + j + 1 ≤ f.emax - f.digits := by
        by_contra hc
        have he : em + j = f.emax - f.digits := by omega
        have h1 : ((q * 2 ^ j : ℕ) : ℚ) * 2 ^ em = f.max := by
          rw [hscale, he]
          unfold FloatTy.max
          have : (q : ℚ) = 2 ^ f.digits - 1 := by
            have h5 : q + 1 = 2 ^ f.digits := by omega
            have h6 : ((q + 1 : ℕ) : ℚ) = 2 ^ f.digits := by rw [h5]; push_cast; rfl
            push_cast at h6; linarith
          rw [this]
          congr 1
          rw [← zpow_natCast]; congr 1; omega
        have h2 : (n : ℚ) * 2 ^ em ≤ ((q * 2 ^ j : ℕ) : ℚ) * 2 ^ em := by rw [h1]; exact hn
        have h3 : (n : ℚ) ≤ ((q * 2 ^ j : ℕ) : ℚ) := le_of_mul_le_mul_right h2 (hpos em)
        have h4 : n ≤ q * 2 ^ j := by exact_mod_cast h3
        omega
      refine ⟨2 ^ p, em + j + 1, ?_, by omega, hne, ?_⟩
      · rw [abs_of_nonneg (by positivity), hp, pow_succ]
        have : (0 : ℤ) < 2 ^ p := by positivity
        omega
      · rw [hqe, zpow_add_one₀ two]; push_cast; ring
  refine ⟨_, _, hL, hH, ?_, ?_, ?_⟩
  · exact mul_le_mul_of_nonneg_right (by exact_mod_cast hql) (hpos em).le
  · exact mul_le_mul_of_nonneg_right (by exact_mod_cast hqh.le) (hpos em).le
  · rw [← sub_mul]
    have e1 : (((q + 1) * 2 ^ j : ℕ) : ℚ) - ((q * 2 ^ j : ℕ) : ℚ) = 2 ^ j := by push_cast; ring
    rw [e1, ← mul_assoc]
    refine mul_le_mul_of_nonneg_right ?_ (hpos em).le
    have h1 : ((2 ^ (p + j) : ℕ) : ℚ) ≤ n := by exact_mod_cast hlo
    push_cast at h1
    have h2 : (2 : ℚ) ^ ((1 : ℤ) - f.digits) * 2 ^ (p + j) = 2 ^ j := by
      rw [← zpow_natCast, ← zpow_natCast, ← zpow_add₀ two]; congr 1; rw [hp]; push_cast; ring
    calc (2 : ℚ) ^ j = 2 ^ ((1 : ℤ) - f.digits) * 2 ^ (p + j) := h2.symm
      _ ≤ 2 ^ ((1 : ℤ) - f.digits) * n := mul_le_mul_of_nonneg_left h1 (hpos _).le

theorem bracket {f : FloatTy} (hf : 0 < f.digits ∧ f.digits < f.emax) {a b : ℚ} (ha : FloatValue f a) (hb : FloatValue f b)
    (hn : |a + b| ≤ f.max) :
    ∃ L H, FloatValue f L ∧ FloatValue f H ∧ L ≤ a + b ∧ a + b ≤ H ∧ H - L ≤ 2 ^ ((1 : ℤ) - f.digits) * |a + b| := by
  obtain ⟨m, rfl⟩ := value_grid ha
  obtain ⟨n, rfl⟩ := value_grid hb
  have hpos : (0 : ℚ) < 2 ^ ((3 : ℤ) - f.emax - f.digits) := zpow_pos (by norm_num) _
  rw [← add_mul] at hn ⊢
  rw [abs_mul, abs_of_pos hpos] at hn ⊢
  rw [show ((m : ℚ) + n) = ((m + n : ℤ) : ℚ) by push_cast; rfl] at hn ⊢
  rw [← Int.cast_abs, Int.abs_eq_natAbs, Int.cast_natCast] at hn ⊢
  obtain ⟨L, H, h1, h2, h3, h4, h5⟩ := bracket_nat hf _ hn
  rcases Int.natAbs_eq (m + n) with h | h
  · have e : (((m + n : ℤ) : ℚ)) = ((m + n).natAbs : ℚ) := by
      conv_lhs => rw [h]
      simp
    rw [e]
    exact ⟨L, H, h1, h2, h3, h4, h5⟩
  · have e : (((m + n : ℤ) : ℚ)) = -((m + n).natAbs : ℚ) := by
      conv_lhs => rw [h]
      simp
    rw [e]
    exact ⟨-H, -L, h2.neg, h1.neg, by linarith, by linarith, by linarith⟩

/-- The relative error of one addition is at most `u`, as long as the sum is in the range of the format. -/
def AddError (f : FloatTy) (rnd : ℚ → ℚ) (u : ℚ) : Prop :=
  ∀ a b, FloatValue f a → FloatValue f b → |a + b| ≤ f.max → |fadd rnd a b - (a + b)| ≤ u * |a + b|

theorem addError_any {f : FloatTy} (hf : StandardFloat f) {rnd : ℚ → ℚ} (hr : RoundsTo f rnd) : AddError f rnd (2 ^ ((1 : ℤ) - f.digits)) := by
  intro a b ha hb hn
  obtain ⟨L, H, h1, h2, h3, h4, h5⟩ := bracket ⟨hf.1, hf.2.1⟩ ha hb hn
  have h6 := hr.2.1 _ _ h3
  have h7 := hr.2.1 _ _ h4
  rw [hr.1 _ h1] at h6
  rw [hr.1 _ h2] at h7
  unfold fadd
  rw [abs_le]
  constructor <;> linarith

theorem addError_nearest {f : FloatTy} (hf : StandardFloat f) {rnd : ℚ → ℚ} (hr : RoundsToNearest f rnd) :
    AddError f rnd (2 ^ (-(f.digits : ℤ))) := by
  intro a b ha hb hn
  obtain ⟨L, H, h1, h2, h3, h4, h5⟩ := bracket ⟨hf.1, hf.2.1⟩ ha hb hn
  have h6 := hr.2 (a + b) L h1
  have h7 := hr.2 (a + b) H h2
  rw [abs_of_nonpos (by linarith : L - (a + b) ≤ 0)] at h6
  rw [abs_of_nonneg (by linarith : 0 ≤ H - (a + b))] at h7
  have e : (2 : ℚ) ^ ((1 : ℤ) - f.digits) = 2 * 2 ^ (-(f.digits : ℤ)) := by
    rw [sub_eq_add_neg, zpow_add₀ (by norm_num : (2 : ℚ) ≠ 0), zpow_one]
  rw [e] at h5
  unfold fadd
  linarith

theorem absSum_nonneg (xs : List ℚ) : 0 ≤ absSum xs := by
  unfold absSum
  exact List.sum_nonneg (by simp)

theorem abs_sum_le (xs : List ℚ) : |xs.sum| ≤ absSum xs := by
  induction xs with
  | nil => simp [absSum]
  | cons x xs ih =>
    have e : absSum (x :: xs) = |x| + absSum xs := by simp [absSum]
    rw [List.sum_cons, e]
    exact (abs_add_le _ _).trans (add_le_add (le_refl _) ih)

theorem absSum_append (xs ys : List ℚ) : absSum (xs ++ ys) = absSum xs + absSum ys := by simp [absSum]

theorem gsum_error {f : FloatTy} {rnd : ℚ → ℚ} (hr : RoundsTo f rnd) {u : ℚ} (hu : 0 ≤ u) (he : AddError f rnd u) {xs : List ℚ} {v : ℚ}
    (h : GSum (fadd rnd) xs v) (hx : ∀ x ∈ xs, FloatValue f x) (hb : (1 + u) ^ (xs.length - 1) * absSum xs ≤ f.max) :
    FloatValue f v ∧ |v - xs.sum| ≤ ((1 + u) ^ (xs.length - 1) - 1) * absSum xs := by
  induction h with
  | single x => exact ⟨hx x (by simp), by simp⟩
  | perm hp _ ih =>
    have e1 : absSum _ = absSum _ := (hp.map abs).sum_eq
    have := ih (fun x h => hx x (hp.mem_iff.1 h)) (by rw [hp.length_eq, e1]; exact hb)
    rw [hp.length_eq, e1, hp.sum_eq] at this
    exact this
  | @node xs ys a b h1 h2 ih1 ih2 =>
    obtain ⟨m, hm⟩ : ∃ m, xs.length = m + 1 := ⟨xs.length - 1, by have := List.length_pos_iff.2 h1.ne_nil; omega⟩
    obtain ⟨n, hn⟩ : ∃ n, ys.length = n + 1 := ⟨ys.length - 1, by have := List.length_pos_iff.2 h2.ne_nil; omega⟩
    have hl : (xs ++ ys).length - 1 = m + n + 1 := by rw [List.length_append]; omega
    rw [hl, absSum_append] at hb ⊢
    rw [List.sum_append]
    have hm' : xs.length - 1 = m := by omega
    have hn' : ys.length - 1 = n := by omega
    rw [hm'] at ih1
    rw [hn'] at ih2
    set A := absSum xs
    set B := absSum ys
    have hA : 0 ≤ A := absSum_nonneg xs
    have hB : 0 ≤ B := absSum_nonneg ys
    have h1u : 1 ≤ 1 + u := by linarith
    have g1 : (1 + u) ^ m ≤ (1 + u) ^ (m + n) := pow_le_pow_right₀ h1u (by omega)
    have g2 : (1 + u) ^ n ≤ (1 + u) ^ (m + n) := pow_le_pow_right₀ h1u (by omega)
    have g3 : (1 + u) ^ (m + n + 1) = (1 + u) ^ (m + n) * (1 + u) := pow_succ _ _
    have g4 : 0 ≤ (1 + u) ^ (m + n) := by positivity
    set G := (1 + u) ^ (m + n)
    have k1 : (1 + u) ^ m * A ≤ G * A := mul_le_mul_of_nonneg_right g1 hA
    have k2 : (1 + u) ^ n * B ≤ G * B := mul_le_mul_of_nonneg_right g2 hB
    have k3 : G * (A + B) ≤ f.max := by
      refine le_trans ?_ hb
      rw [g3]
      have : 0 ≤ G * (A + B) := by positivity
      nlinarith
    have hGA : 0 ≤ G * A := by positivity
    have hGB : 0 ≤ G * B := by positivity
    obtain ⟨fa, ea⟩ := ih1 (fun x h => hx x (by simp [h])) (by linarith)
    obtain ⟨fb, eb⟩ := ih2 (fun x h => hx x (by simp [h])) (by linarith)
    have sa : |xs.sum| ≤ A := abs_sum_le xs
    have sb : |ys.sum| ≤ B := abs_sum_le ys
    have hab : |a + b| ≤ G * (A + B) := by
      have t1 : |a| ≤ |a - xs.sum| + |xs.sum| := by have := abs_add_le (a - xs.sum) xs.sum; simpa using this
      have t2 : |b| ≤ |b - ys.sum| + |ys.sum| := by have := abs_add_le (b - ys.sum) ys.sum; simpa using this
      have t3 := abs_add_le a b
      linarith
    refine ⟨hr.2.2 _, ?_⟩
    have t0 := he a b fa fb (hab.trans k3)
    have t1 : |fadd rnd a b - (xs.sum + ys.sum)| ≤ |fadd rnd a b - (a + b)| + |a - xs.sum| + |b - ys.sum| := by
      have e : fadd rnd a b - (xs.sum + ys.sum) = (fadd rnd a b - (a + b)) + (a - xs.sum) + (b - ys.sum) := by ring
      rw [e]
      exact (abs_add_le _ _).trans (add_le_add (abs_add_le _ _) (le_refl _))
    have t2 : u * |a + b| ≤ u * (G * (A + B)) := mul_le_mul_of_nonneg_left hab hu
    rw [g3]
    nlinarith

end Vir.FloatSum
