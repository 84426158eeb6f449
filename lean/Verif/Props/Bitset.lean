import Verif.Model.Bitset
import Verif.Lemmas.Simd
import Verif.Props.Mask

/-!
# C34: conversions between masks and bitsets
-/

namespace Vir.Spec

/-- The bitset `b` (as a number) of `k.length` bits has the lanes of `k` as its bits. -/
def BitsOf (k : List Bool) (b : Nat) : Prop :=
  b < 2 ^ k.length ∧ ∀ (i : Nat) (x : Bool), k[i]? = some x → b.testBit i = x

/-- `std::bitset<n>::count`. -/
def bitCount (n b : Nat) : Nat := ((List.range n).filter b.testBit).length

end Vir.Spec

namespace Vir.Simd
open Spec

private theorem setBit_testBit (b i j : Nat) (x : Bool) (hb : b < 2 ^ i) :
    (setBit b i x).testBit j = if j = i then x else b.testBit j := by
  have hbi : b.testBit i = false := Nat.testBit_lt_two_pow hb
  unfold setBit
  cases x
  · simp only [Bool.false_eq_true, if_false, Nat.testBit_xor, Nat.testBit_and, Nat.testBit_two_pow]
    split
    · rename_i h; subst h; simp [hbi]
    · rename_i h; simp [Ne.symm h]
  · simp only [if_true, Nat.testBit_or, Nat.testBit_two_pow]
    split
    · rename_i h; subst h; simp
    · rename_i h; simp [Ne.symm h]

private theorem lt_of_bits {b n : Nat} (h : ∀ j, n ≤ j → b.testBit j = false) : b < 2 ^ n :=
  Nat.lt_pow_two_of_testBit b h

/-- **C34.** Bit `i` of `to_bitset(k)` is `k[i]`. -/
theorem toBitset_spec (k : List Bool) : ∃ b, toBitset k = .ok b ∧ BitsOf k b := by
  unfold toBitset
  split
  · rename_i h
    obtain ⟨x, rfl⟩ := List.length_eq_one_iff.1 h
    cases x <;> refine ⟨_, rfl, by decide, fun i x hi => ?_⟩ <;>
      cases i <;> simp_all
  · obtain ⟨b, h1, h2, h3⟩ := forUp_inv (fun i bits => do .ok (setBit bits i (← at' k i))) k.length 0 0
      (fun i b => b < 2 ^ i ∧ ∀ j x, j < i → k[j]? = some x → b.testBit j = x)
      (by simp) (by
        intro j st _ hj ⟨hst1, hst2⟩
        have hj : j < k.length := by omega
        refine ⟨_, by simp only [at'_eq hj, Outcome.bind_ok]; rfl, lt_of_bits fun m hm => ?_, fun m x hm hx => ?_⟩
        · rw [setBit_testBit _ _ _ _ hst1, if_neg (by omega)]
          exact Nat.testBit_lt_two_pow (Nat.lt_of_lt_of_le hst1 (Nat.pow_le_pow_right (by decide) (by omega)))
        · rw [setBit_testBit _ _ _ _ hst1]
          split
          · rename_i h; subst h
            rw [List.getElem?_eq_getElem hj] at hx
            exact Option.some.inj hx
          · exact hst2 m x (by omega) hx)
    refine ⟨b, h1, by simpa using h2, fun i x hx => h3 i x ?_ hx⟩
    have := (List.getElem?_eq_some_iff.1 hx).1
    omega

/-- **C34.** Lane `i` of `to_simd_mask(b)` is bit `i`. -/
theorem toSimdMask_spec (n b : Nat) : toSimdMask n b = .ok ((List.range n).map b.testBit) := by
  unfold toSimdMask
  split
  · rename_i h; subst h; rfl
  · exact gen_eq _ _ _ fun j _ => rfl

/-- **C34.** `to_simd_mask(to_bitset(k)) == k`. -/
theorem toSimdMask_toBitset (k : List Bool) : (do toSimdMask k.length (← toBitset k)) = .ok k := by
  obtain ⟨b, h1, h2, h3⟩ := toBitset_spec k
  rw [h1, Outcome.bind_ok, toSimdMask_spec]
  congr 1
  refine List.ext_getElem (by simp) fun i h4 h5 => ?_
  simpa using h3 i k[i] (List.getElem?_eq_getElem h5)

private theorem bits_unique {k : List Bool} {b b' : Nat} (h : BitsOf k b) (h' : BitsOf k b') : b = b' := by
  refine Nat.eq_of_testBit_eq fun i => ?_
  by_cases hi : i < k.length
  · rw [h.2 i _ (List.getElem?_eq_getElem hi), h'.2 i _ (List.getElem?_eq_getElem hi)]
  · have hp : 2 ^ k.length ≤ 2 ^ i := Nat.pow_le_pow_right (by decide) (by omega)
    rw [Nat.testBit_lt_two_pow (Nat.lt_of_lt_of_le h.1 hp), Nat.testBit_lt_two_pow (Nat.lt_of_lt_of_le h'.1 hp)]

/-- **C34.** `to_bitset(to_simd_mask(b)) == b` for every bitset of `n` bits. -/
theorem toBitset_toSimdMask (n b : Nat) (hb : b < 2 ^ n) : (do toBitset (← toSimdMask n b)) = .ok b := by
  rw [toSimdMask_spec, Outcome.bind_ok]
  obtain ⟨b', h1, h2⟩ := toBitset_spec ((List.range n).map b.testBit)
  rw [h1, bits_unique h2 ⟨by simpa using hb, fun i x hx => ?_⟩]
  obtain ⟨hi, hx⟩ := List.getElem?_eq_some_iff.1 hx
  simpa using hx

/-- **C34.** The mask reductions agree with the operations of the bitset: `popcount` with `count()`, `any_of` with
`any()` (some bit set), `all_of` with `all()` (all `n` bits set), `none_of` with `none()`. -/
theorem reductions_toBitset (k : List Bool) (h0 : k ≠ []) :
    ∃ b, toBitset k = .ok b ∧ popcount k = .ok (bitCount k.length b) ∧
      anyOf k = .ok (decide (b ≠ 0)) ∧ noneOf k = .ok (decide (b = 0)) ∧
      allOf k = .ok (decide (b = 2 ^ k.length - 1)) := by
  obtain ⟨b, h1, h2, h3⟩ := toBitset_spec k
  have hk : k = (List.range k.length).map b.testBit := by
    refine List.ext_getElem (by simp) fun i h4 h5 => ?_
    simpa using (h3 i k[i] (List.getElem?_eq_getElem h4)).symm
  have hlow : ∀ i, k.length ≤ i → b.testBit i = false := fun i hi =>
    Nat.testBit_lt_two_pow (Nat.lt_of_lt_of_le h2 (Nat.pow_le_pow_right (by decide) hi))
  have hany : (∃ x ∈ k, x = true) ↔ b ≠ 0 := by
    refine ⟨fun ⟨x, hx, ht⟩ hb => ?_, fun hb => ?_⟩
    · obtain ⟨i, hi, hix⟩ := List.getElem_of_mem hx
      have := h3 i k[i] (List.getElem?_eq_getElem hi)
      rw [hix, ht, hb] at this
      simp at this
    · obtain ⟨i, hi⟩ := Nat.exists_testBit_of_ne_zero hb
      have hil : i < k.length := by
        rcases Nat.lt_or_ge i k.length with h | h
        · exact h
        · rw [hlow i h] at hi; simp at hi
      exact ⟨k[i], List.getElem_mem hil, by rw [← h3 i k[i] (List.getElem?_eq_getElem hil)]; exact hi⟩
  have hall : (∀ x ∈ k, x = true) ↔ b = 2 ^ k.length - 1 := by
    refine ⟨fun h => Nat.eq_of_testBit_eq fun i => ?_, fun h x hx => ?_⟩
    · rw [Nat.testBit_two_pow_sub_one]
      by_cases hi : i < k.length
      · rw [h3 i k[i] (List.getElem?_eq_getElem hi), h _ (List.getElem_mem hi)]; simp [hi]
      · rw [hlow i (by omega)]; simp [hi]
    · obtain ⟨i, hi, hix⟩ := List.getElem_of_mem hx
      have := h3 i k[i] (List.getElem?_eq_getElem hi)
      rw [hix, h, Nat.testBit_two_pow_sub_one] at this
      simpa [hi] using this.symm
  refine ⟨b, h1, ?_, ?_, ?_, ?_⟩
  · rw [popcount_spec k h0, bitCount]
    congr 1
    conv => lhs; rw [hk]
    rw [List.filter_map, List.length_map]
    congr 1
    exact List.filter_congr fun x _ => by simp
  · obtain ⟨c, hc, hci⟩ := any_of_iff k
    rw [hc]; congr 1; rw [Bool.eq_iff_iff, hci, hany, decide_eq_true_eq]
  · obtain ⟨c, hc, hci⟩ := none_of_iff k
    rw [hc]; congr 1; rw [Bool.eq_iff_iff, hci, hany, decide_eq_true_eq, Classical.not_not]
  · obtain ⟨c, hc, hci⟩ := all_of_iff k
    rw [hc]; congr 1; rw [Bool.eq_iff_iff, hci, hall, decide_eq_true_eq]

/-! ### the theorems are about something -/

example : toBitset [true, false, true, true] = .ok 0b1101 := by decide
example : toBitset [true] = .ok 1 ∧ toBitset [false] = .ok 0 := by decide
example : toSimdMask 4 0b1101 = .ok [true, false, true, true] := by decide
example : 0b1101 < 2 ^ 4 := by decide

/-! ## The theorems applied to concrete data -/

example := toBitset_toSimdMask 4 0b1101 (by decide)
example := reductions_toBitset [true, false, true] (by decide)

end Vir.Simd
