import Verif.Lemmas.Simd
import Verif.Lemmas.Bits
import Verif.Model.Permute
import Verif.Spec.Permute

namespace Vir.Permute
open Vir.Simd Vir.Spec

variable {α : Type}

theorem toU32_nat {x : Nat} (h : x < 2 ^ 32) : toU32 (x : Int) = x := by
  unfold toU32; omega

theorem toU64_nonneg {x : Int} (h0 : 0 ≤ x) (h : x < 2 ^ 64) : toU64 x = x.toNat := by
  unfold toU64
  rw [Int.emod_eq_of_lt h0 h]

theorem toI32_small {x : Nat} (h : x < 2 ^ 31) : toI32 x = x := by
  unfold toI32
  have : x % 2 ^ 32 = x := Nat.mod_eq_of_lt (by omega)
  rw [this, if_pos h]

theorem cint_eq {x : Int} (h : -2 ^ 31 ≤ x ∧ x < 2 ^ 31) : cint x = .ok x := if_pos h

theorem genFrom_congr {f g : Nat → Outcome α} {c i : Nat} (h : ∀ j, i ≤ j → j < i + c → f j = g j) :
    genFrom f c i = genFrom g c i := by
  induction c generalizing i with
  | zero => rfl
  | succ c ih =>
    rw [genFrom, genFrom, h i (Nat.le_refl _) (by omega), ih (fun j h1 h2 => h j (by omega) (by omega))]

theorem gen_congr {f g : Nat → Outcome α} {n : Nat} (h : ∀ j, j < n → f j = g j) : gen n f = gen n g :=
  genFrom_congr (fun j _ hj => h j (by omega))

/-- One lane: shufflevector and generic code agree if there is no padding or no zero is requested. -/
theorem lane_eq {zero : α} {junk : Outcome α} {v pad : List α} {j : Int} (h0 : 0 < v.length)
    (hv : v.length < 2 ^ 31 - 2) (hp : pad = [] ∨ j ≠ permuteZero) :
    (do shuffleLane junk (v ++ pad) (List.replicate (v ++ pad).length zero) (← adjIdx v.length j)) =
      (if j = permuteZero then .ok zero
      else if j = permuteUninit then junk
      else if j < 0 then
        if -j ≤ v.length then at' v (toU64 (v.length + j)) else .ub .staticAssert
      else if j < v.length then at' v (toU64 j) else .ub .staticAssert) := by
  unfold adjIdx
  by_cases h1 : j = permuteZero
  · rw [if_pos h1, if_pos h1, Outcome.bind_ok]
    obtain rfl : pad = [] := hp.resolve_right (fun h => h h1)
    rw [shuffleLane, if_neg (by omega), if_neg (by omega)]
    rw [List.append_nil, Int.toNat_natCast, List.getElem?_append_right (Nat.le_refl _), Nat.sub_self,
        List.getElem?_replicate, if_pos (by omega)]
  · rw [if_neg h1, if_neg h1]
    by_cases h2 : j = permuteUninit
    · rw [if_pos h2, if_pos h2, Outcome.bind_ok, shuffleLane, if_pos rfl]
    · rw [if_neg h2, if_neg h2]
      by_cases h3 : j < 0
      · rw [if_pos h3, if_pos h3]
        by_cases h4 : -j ≤ v.length
        · rw [if_pos h4, if_pos h4, Outcome.bind_ok, shuffleLane, if_neg (by omega), if_neg (by omega),
            toU64_nonneg (by omega) (by omega), at'_eq (by omega), List.append_assoc,
            List.getElem?_append_left (by omega), List.getElem?_eq_getElem (by omega)]
        · rw [if_neg h4, if_neg h4]; rfl
      · rw [if_neg h3, if_neg h3]
        by_cases h4 : j < v.length
        · rw [if_pos h4, if_pos h4, Outcome.bind_ok, shuffleLane, if_neg (by omega), if_neg (by omega),
            toU64_nonneg (by omega) (by omega), at'_eq (by omega), List.append_assoc,
            List.getElem?_append_left (by omega), List.getElem?_eq_getElem (by omega)]
        · rw [if_neg h4, if_neg h4]; rfl

theorem shuffled_eq_generic {zero : α} {junk : Nat → Outcome α} {v pad : List α} {n : Nat} {f : IdxFn} (h0 : 0 < v.length)
    (hv : v.length < 2 ^ 31 - 2) (hp : pad = [] ∨ ∀ i, i < n → f i v.length ≠ .ok permuteZero) :
    shuffled zero junk pad n f v = generic zero junk n f v := by
  refine gen_congr fun i hi => ?_
  unfold genericLane
  cases hf : f i v.length with
  | ok j =>
    simp only [Outcome.bind_ok]
    exact lane_eq h0 hv (hp.imp_right (fun h hj => h i hi (by rw [hf, hj])))
  | ub r => rfl
  | trap => rfl

/-- Lanes selected by an index function, in the generic implementation. -/
theorem genericLane_picks {zero : α} {junk : Nat → Outcome α} {v : List α} {f : IdxFn} {i : Nat} {j : Int} {x : α}
    (hv : v.length < 2 ^ 31 - 2) (hf : f i v.length = .ok j) (hx : Picks zero v j x) :
    genericLane zero junk f v i = .ok x := by
  rw [genericLane, hf, Outcome.bind_ok]
  rcases hx with ⟨rfl, rfl⟩ | ⟨h0, hx⟩ | ⟨h0, h1, hx⟩
  · rfl
  · obtain ⟨hl, rfl⟩ := List.getElem?_eq_some_iff.1 hx
    rw [if_neg (by unfold permuteZero; omega), if_neg (by unfold permuteUninit permuteZero; omega), if_neg (by omega),
      if_pos (by omega), toU64_nonneg h0 (by omega), at'_eq hl]
  · obtain ⟨hl, rfl⟩ := List.getElem?_eq_some_iff.1 hx
    rw [if_neg (by unfold permuteZero; omega), if_neg (by unfold permuteUninit permuteZero; omega), if_pos (by omega),
      if_pos (by omega), toU64_nonneg (by omega) (by omega), at'_eq hl]

/-- The generic implementation with an index function that maps lane `i` to lane `g i`. -/
theorem generic_of_index {zero : α} {junk : Nat → Outcome α} {v : List α} {n : Nat} {f : IdxFn} (g : Nat → Nat)
    (hv : v.length < 2 ^ 31 - 2)
    (hg : ∀ i, i < n → g i < v.length ∧ (f i v.length = .ok (g i : Int) ∨ f i v.length = .ok ((g i : Int) - v.length))) :
    ∃ r, generic zero junk n f v = .ok r ∧ r.length = n ∧ ∀ i, i < n → r[i]? = v[g i]? := by
  refine ⟨(List.range n).map (fun i => v.getD (g i) zero), ?_, by simp, ?_⟩
  · refine gen_eq n _ _ (fun i hi => ?_)
    obtain ⟨h1, h2⟩ := hg i hi
    have hget : v[g i]? = some (v.getD (g i) zero) := by
      rw [List.getD_eq_getElem?_getD, List.getElem?_eq_getElem h1]; rfl
    rcases h2 with h2 | h2
    · exact genericLane_picks hv h2 (Or.inr (Or.inl ⟨by omega, by rw [Int.toNat_natCast]; exact hget⟩))
    · refine genericLane_picks hv h2 (Or.inr (Or.inr ⟨by omega, by omega, ?_⟩))
      have : ((v.length : Int) + ((g i : Int) - v.length)).toNat = g i := by omega
      rw [this]; exact hget
  · intro i hi
    obtain ⟨h1, _⟩ := hg i hi
    simp [hi, List.getElem?_eq_getElem h1]

/-- `i ^ N` for a power of two exchanges adjacent blocks of `N`. -/
theorem xor_one (y : Nat) : y ^^^ 1 = if y % 2 = 1 then y - 1 else y + 1 := by
  have h1 : (y ^^^ 1) / 2 = y / 2 := by
    have := Nat.xor_div_two_pow (a := y) (b := 1) (n := 1)
    simpa using this
  have h2 : (y ^^^ 1) % 2 = (y % 2) ^^^ 1 := by
    have := Nat.xor_mod_two_pow (a := y) (b := 1) (n := 1)
    simpa using this
  rcases Nat.mod_two_eq_zero_or_one y with h | h
  · rw [h] at h2
    have : (0 ^^^ 1 : Nat) = 1 := rfl
    rw [if_neg (by omega)]; omega
  · rw [h] at h2
    have : (1 ^^^ 1 : Nat) = 0 := rfl
    rw [if_pos h]; omega

theorem xor_two_pow (x k : Nat) : x ^^^ 2 ^ k = if x % (2 * 2 ^ k) ≥ 2 ^ k then x - 2 ^ k else x + 2 ^ k := by
  have hpos := Nat.two_pow_pos k
  have h1 : (x ^^^ 2 ^ k) / 2 ^ k = (x / 2 ^ k) ^^^ 1 := by
    rw [Nat.xor_div_two_pow, Nat.div_self hpos]
  have h2 : (x ^^^ 2 ^ k) % 2 ^ k = x % 2 ^ k := by
    rw [Nat.xor_mod_two_pow, Nat.mod_self, Nat.xor_zero]
  rw [xor_one] at h1
  have h3 := Nat.div_add_mod (x ^^^ 2 ^ k) (2 ^ k)
  rw [h1, h2] at h3
  have h4 := Nat.div_add_mod x (2 ^ k)
  have h5 : x % (2 * 2 ^ k) = x % 2 ^ k + 2 ^ k * (x / 2 ^ k % 2) := by
    rw [Nat.mul_comm, Nat.mod_mul]
  have hlt := Nat.mod_lt x hpos
  rw [← h3]
  rcases Nat.mod_two_eq_zero_or_one (x / 2 ^ k) with h | h
  · rw [h] at h5
    rw [if_neg (by omega), if_neg (by omega), Nat.mul_add]
    omega
  · rw [h] at h5
    have hd : 1 ≤ x / 2 ^ k := by
      rcases Nat.eq_zero_or_pos (x / 2 ^ k) with h0 | h0
      · rw [h0] at h; simp at h
      · exact h0
    have hge : 2 ^ k * 1 ≤ 2 ^ k * (x / 2 ^ k) := Nat.mul_le_mul_left _ hd
    rw [if_pos h, if_pos (by omega), Nat.mul_sub]
    omega

end Vir.Permute
