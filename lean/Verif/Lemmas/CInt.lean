import Verif.Model.CInt

namespace Vir.IntTy

theorem two_pow_succ_pred {b : Nat} (h : 0 < b) : (2 : Int) ^ b = 2 * 2 ^ (b - 1) := by
  obtain ⟨c, rfl⟩ := Nat.exists_eq_add_of_lt h
  simp [Int.pow_succ, Int.mul_comm]

theorem has_conv (t : IntTy) (h : 0 < t.bits) (x : Int) : t.Has (t.conv x) := by
  have hp : (2 : Int) ^ t.bits = 2 * 2 ^ (t.bits - 1) := two_pow_succ_pred h
  have hpos : (0 : Int) < 2 ^ (t.bits - 1) := Int.pow_pos (by decide)
  unfold Has conv lowest max
  cases t.signed
  · simp only [Bool.false_eq_true, if_false]
    have h1 := Int.emod_nonneg x (show (2 : Int) ^ t.bits ≠ 0 by omega)
    have h2 := Int.emod_lt_of_pos x (show (0 : Int) < 2 ^ t.bits by omega)
    omega
  · simp only [if_true]
    have hn : ((2 ^ t.bits : Nat) : Int) = 2 ^ t.bits := by simp
    have hpn : 0 < 2 ^ t.bits := Nat.pow_pos (by decide)
    have h1 := Int.le_bmod (x := x) hpn
    have h2 := Int.bmod_lt (x := x) hpn
    rw [hn, hp] at h1 h2
    omega

theorem conv_emod (t : IntTy) (x : Int) : t.conv x % 2 ^ t.bits = x % 2 ^ t.bits := by
  unfold conv
  split
  · have hn : ((2 ^ t.bits : Nat) : Int) = 2 ^ t.bits := by simp
    rw [← hn, Int.bmod_emod]
  · rw [Int.emod_emod_of_dvd _ (Int.dvd_refl _)]

theorem has_eq_of_emod {t : IntTy} (h : 0 < t.bits) {x y : Int} (hx : t.Has x) (hy : t.Has y)
    (he : x % 2 ^ t.bits = y % 2 ^ t.bits) : x = y := by
  have hp : (2 : Int) ^ t.bits = 2 * 2 ^ (t.bits - 1) := two_pow_succ_pred h
  have hpos : (0 : Int) < 2 ^ (t.bits - 1) := Int.pow_pos (by decide)
  have hd : (2 : Int) ^ t.bits ∣ x - y := Int.dvd_of_emod_eq_zero (Int.emod_eq_emod_iff_emod_sub_eq_zero.1 he)
  obtain ⟨k, hk⟩ := hd
  have hb : -2 ^ t.bits < x - y ∧ x - y < 2 ^ t.bits := by
    unfold Has lowest max at hx hy
    cases hs : t.signed <;> simp only [hs, Bool.false_eq_true, if_false, if_true] at hx hy <;> omega
  have hk0 : k = 0 := by
    rcases Int.lt_trichotomy k 0 with hk1 | hk1 | hk1
    · have : 2 ^ t.bits * k ≤ 2 ^ t.bits * (-1) := Int.mul_le_mul_of_nonneg_left (by omega) (by omega)
      omega
    · exact hk1
    · have : 2 ^ t.bits * 1 ≤ 2 ^ t.bits * k := Int.mul_le_mul_of_nonneg_left (by omega) (by omega)
      omega
  subst hk0
  omega

theorem conv_of_has {t : IntTy} (h : 0 < t.bits) {x : Int} (hx : t.Has x) : t.conv x = x :=
  has_eq_of_emod h (has_conv t h x) hx (conv_emod t x)

theorem emod_pow_of_le {a b : Nat} (h : a ≤ b) {x y : Int} (he : x % 2 ^ b = y % 2 ^ b) : x % 2 ^ a = y % 2 ^ a := by
  have hd : (2 : Int) ^ a ∣ 2 ^ b := ⟨2 ^ (b - a), by rw [← Int.pow_add]; congr 1; omega⟩
  rw [← Int.emod_emod_of_dvd x hd, he, Int.emod_emod_of_dvd y hd]

theorem conv_conv {t u : IntTy} (h : 0 < t.bits) (hle : t.bits ≤ u.bits) (x : Int) : t.conv (u.conv x) = t.conv x :=
  has_eq_of_emod h (has_conv t h _) (has_conv t h _)
    (by rw [conv_emod, conv_emod]; exact emod_pow_of_le hle (conv_emod u x))

theorem conv_congr {t : IntTy} (h : 0 < t.bits) {x y : Int} (he : x % 2 ^ t.bits = y % 2 ^ t.bits) :
    t.conv x = t.conv y :=
  has_eq_of_emod h (has_conv t h _) (has_conv t h _) (by rw [conv_emod, conv_emod, he])

theorem promote_bits (t : IntTy) : t.promote.bits = if t.bits < 32 then 32 else t.bits := by
  unfold promote; split <;> rfl

theorem promote_pos (t : IntTy) : 0 < t.promote.bits := by
  rw [promote_bits]; split <;> omega

theorem le_promote (t : IntTy) : t.bits ≤ t.promote.bits := by
  rw [promote_bits]; split <;> omega

theorem promote_has {t : IntTy} (h : 0 < t.bits) {x : Int} (hx : t.Has x) : t.promote.Has x := by
  unfold promote
  split
  · rename_i hlt
    have h1 : (2 : Int) ^ (t.bits - 1) ≤ 2 ^ 31 := by
      have := Nat.pow_le_pow_right (n := 2) (by decide) (show t.bits - 1 ≤ 31 by omega)
      exact_mod_cast this
    have h2 : (2 : Int) ^ t.bits ≤ 2 ^ 31 := by
      have := Nat.pow_le_pow_right (n := 2) (by decide) (show t.bits ≤ 31 by omega)
      exact_mod_cast this
    unfold Has lowest max at *
    simp only [i32, if_true]
    cases hs : t.signed <;> simp only [hs, Bool.false_eq_true, if_false, if_true] at hx <;> omega
  · exact hx

end Vir.IntTy
