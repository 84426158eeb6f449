import Verif.Spec.Bits
import Verif.Model.Bits

namespace Vir
open Spec

theorem two_pow_and (k n : Nat) : 2 ^ k &&& n = if n.testBit k then 2 ^ k else 0 := by
  apply Nat.eq_of_testBit_eq
  intro i
  by_cases h : n.testBit k
  · simp only [h, if_true, Nat.testBit_and, Nat.testBit_two_pow]
    by_cases hi : k = i
    · subst hi; simp [h]
    · simp [hi]
  · simp only [h, Nat.testBit_and, Nat.testBit_two_pow]
    by_cases hi : k = i
    · subst hi; simp [h]
    · simp [hi]

theorem two_pow_and_ne_zero (k n : Nat) : (2 ^ k &&& n ≠ 0) ↔ n.testBit k = true := by
  rw [two_pow_and]
  have := Nat.two_pow_pos k
  split <;> simp_all <;> omega

theorem and_two_pow_ne_zero (k n : Nat) : (n &&& 2 ^ k ≠ 0) ↔ n.testBit k = true := by
  rw [Nat.and_comm]; exact two_pow_and_ne_zero k n

theorem mod_two_pow_succ' (n k : Nat) :
    n % 2 ^ (k + 1) = n % 2 ^ k + (if n.testBit k then 2 ^ k else 0) := by
  rw [Nat.pow_succ, Nat.mod_mul, Nat.testBit_eq_decide_div_mod_eq]
  rcases Nat.mod_two_eq_zero_or_one (n / 2 ^ k) with h | h <;> simp [h]

theorem ascBits_sum (n k m : Nat) : (ascBits n k m).sum + n % 2 ^ k = n % 2 ^ (k + m) := by
  induction m generalizing k with
  | zero => simp [ascBits]
  | succ m ih =>
    have := ih (k + 1)
    rw [mod_two_pow_succ'] at this
    have e : k + 1 + m = k + (m + 1) := by omega
    rw [e] at this
    simp only [ascBits, List.sum_append]
    split <;> simp_all <;> omega

theorem descBits_sum (n k : Nat) : (descBits n k).sum = n % 2 ^ k := by
  induction k with
  | zero => simp [descBits, Nat.mod_one]
  | succ k ih =>
    rw [mod_two_pow_succ']
    simp only [descBits, List.sum_append, ih]
    split <;> simp <;> omega

theorem testBit_false_of_lt {n k : Nat} (h : n < 2 ^ k) : n.testBit k = false :=
  Nat.testBit_lt_two_pow h

theorem ascBits_stable (n k m m' : Nat) (h : n < 2 ^ (k + m)) (hm : m ≤ m') :
    ascBits n k m' = ascBits n k m := by
  induction m' generalizing m k with
  | zero => obtain rfl : m = 0 := by omega
            rfl
  | succ m' ih =>
    cases m with
    | zero =>
      have : n.testBit k = false := testBit_false_of_lt h
      simp only [ascBits, this]
      have := ih (k + 1) 0 (by rw [Nat.add_zero] at *; rw [Nat.pow_succ]; omega) (by omega)
      simp [this, ascBits]
    | succ m =>
      simp only [ascBits]
      rw [ih (k + 1) m (by rw [show k + 1 + m = k + (m + 1) by omega]; exact h) (by omega)]

theorem descBits_stable (n k k' : Nat) (h : n < 2 ^ k) (hk : k ≤ k') :
    descBits n k' = descBits n k := by
  induction k' with
  | zero => obtain rfl : k = 0 := by omega
            rfl
  | succ k' ih =>
    by_cases hk' : k = k' + 1
    · subst hk'; rfl
    · have h' : n < 2 ^ k' := Nat.lt_of_lt_of_le h (Nat.pow_le_pow_right (by omega) (by omega))
      simp [descBits, testBit_false_of_lt h', ih (by omega)]

theorem lt_two_pow_log2_succ (n : Nat) : n < 2 ^ (n.log2 + 1) := Nat.lt_log2_self

theorem bitsAsc_eq (n K : Nat) (h : n < 2 ^ K) : ascBits n 0 K = bitsAsc n := by
  unfold bitsAsc
  have h2 := lt_two_pow_log2_succ n
  rcases Nat.le_total K (n.log2 + 1) with hk | hk
  · exact (ascBits_stable n 0 K _ (by simpa using h) hk).symm
  · exact ascBits_stable n 0 _ K (by simpa using h2) hk

theorem bitsDesc_eq (n K : Nat) (h : n < 2 ^ K) : descBits n K = bitsDesc n := by
  unfold bitsDesc
  have h2 := lt_two_pow_log2_succ n
  rcases Nat.le_total K (n.log2 + 1) with hk | hk
  · exact (descBits_stable n K _ h hk).symm
  · exact descBits_stable n _ K h2 hk

theorem bitsAsc_sum (n : Nat) : (bitsAsc n).sum = n := by
  have := ascBits_sum n 0 (n.log2 + 1)
  rw [Nat.zero_add, Nat.mod_eq_of_lt (lt_two_pow_log2_succ n)] at this
  simpa [bitsAsc, Nat.mod_one] using this

theorem bitsDesc_sum (n : Nat) : (bitsDesc n).sum = n := by
  have := descBits_sum n (n.log2 + 1)
  rw [Nat.mod_eq_of_lt (lt_two_pow_log2_succ n)] at this
  exact this

@[simp] theorem bitsAsc_zero : bitsAsc 0 = [] := by decide
@[simp] theorem bitsDesc_zero : bitsDesc 0 = [] := by decide

theorem mem_ascBits {n k m w : Nat} (h : w ∈ ascBits n k m) :
    ∃ j, k ≤ j ∧ j < k + m ∧ w = 2 ^ j ∧ n.testBit j = true := by
  induction m generalizing k with
  | zero => simp [ascBits] at h
  | succ m ih =>
    simp only [ascBits, List.mem_append] at h
    rcases h with h | h
    · split at h
      · rename_i hb
        simp at h; exact ⟨k, by omega, by omega, h, hb⟩
      · simp at h
    · obtain ⟨j, h1, h2, h3, h4⟩ := ih h
      exact ⟨j, by omega, by omega, h3, h4⟩

theorem mem_descBits {n k w : Nat} (h : w ∈ descBits n k) :
    ∃ j, j < k ∧ w = 2 ^ j ∧ n.testBit j = true := by
  induction k with
  | zero => simp [descBits] at h
  | succ k ih =>
    simp only [descBits, List.mem_append] at h
    rcases h with h | h
    · split at h
      · rename_i hb
        simp at h; exact ⟨k, by omega, h, hb⟩
      · simp at h
    · obtain ⟨j, h1, h2, h3⟩ := ih h
      exact ⟨j, by omega, h2, h3⟩

theorem ascBits_pairwise (n k m : Nat) : (ascBits n k m).Pairwise (· < ·) := by
  induction m generalizing k with
  | zero => simp [ascBits]
  | succ m ih =>
    simp only [ascBits]
    split
    · simp only [List.cons_append, List.nil_append, List.pairwise_cons]
      refine ⟨fun w hw => ?_, ih (k + 1)⟩
      obtain ⟨j, h1, h2, rfl, _⟩ := mem_ascBits hw
      exact Nat.pow_lt_pow_right (by omega) (by omega)
    · simpa using ih (k + 1)

theorem descBits_pairwise (n k : Nat) : (descBits n k).Pairwise (· > ·) := by
  induction k with
  | zero => simp [descBits]
  | succ k ih =>
    simp only [descBits]
    split
    · simp only [List.cons_append, List.nil_append, List.pairwise_cons]
      refine ⟨fun w hw => ?_, ih⟩
      obtain ⟨j, h1, rfl, _⟩ := mem_descBits hw
      exact Nat.pow_lt_pow_right (by omega) (by omega)
    · simpa using ih

/-- `hasSingleBit` recognises exactly the powers of two. -/
theorem hasSingleBit_two_pow (k : Nat) : hasSingleBit (2 ^ k) = true := by
  have h : 2 ^ k &&& (2 ^ k - 1) = 0 := by
    rw [two_pow_and]
    have := Nat.two_pow_pos k
    rw [testBit_false_of_lt (by omega)]; simp
  have := Nat.two_pow_pos k
  simp [hasSingleBit, h]

theorem hasSingleBit_iff (n : Nat) : hasSingleBit n = true ↔ ∃ k, n = 2 ^ k := by
  constructor
  · intro h
    simp only [hasSingleBit, Bool.and_eq_true, bne_iff_ne, beq_iff_eq] at h
    obtain ⟨hn, h⟩ := h
    refine ⟨n.log2, ?_⟩
    have h1 := Nat.log2_self_le hn
    have h2 := lt_two_pow_log2_succ n
    by_cases he : n = 2 ^ n.log2
    · exact he
    · exfalso
      have hb : n.testBit n.log2 = true := by
        rw [Nat.testBit_eq_decide_div_mod_eq]
        rw [Nat.pow_succ] at h2
        have : n / 2 ^ n.log2 = 1 := by
          apply Nat.div_eq_of_lt_le <;> omega
        simp [this]
      have hb2 : (n - 1).testBit n.log2 = true := by
        rw [Nat.testBit_eq_decide_div_mod_eq]
        rw [Nat.pow_succ] at h2
        have : (n - 1) / 2 ^ n.log2 = 1 := by
          apply Nat.div_eq_of_lt_le <;> omega
        simp [this]
      have : (n &&& (n - 1)).testBit n.log2 = true := by simp [Nat.testBit_and, hb, hb2]
      rw [h] at this
      simp at this
  · rintro ⟨k, rfl⟩; exact hasSingleBit_two_pow k

theorem stdBitCeil_spec {n : Nat} (h : 1 < n) :
    ∃ K, stdBitCeil n = 2 ^ (K + 1) ∧ 2 ^ K < n ∧ n ≤ 2 ^ (K + 1) := by
  refine ⟨Nat.log2 (n - 1), ?_, ?_, ?_⟩
  · simp [stdBitCeil]; omega
  · have := Nat.log2_self_le (n := n - 1) (by omega); omega
  · have := lt_two_pow_log2_succ (n - 1); omega

theorem stdBitCeil_unique {n K : Nat} (h1 : 2 ^ K < n) (h2 : n ≤ 2 ^ (K + 1)) :
    stdBitCeil n = 2 ^ (K + 1) := by
  have hp := Nat.two_pow_pos K
  obtain ⟨K', hK, h3, h4⟩ := stdBitCeil_spec (n := n) (by omega)
  have : K < K' + 1 := (Nat.pow_lt_pow_iff_right (by omega : 1 < 2)).1 (by omega : 2 ^ K < 2 ^ (K' + 1))
  have : K' < K + 1 := (Nat.pow_lt_pow_iff_right (by omega : 1 < 2)).1 (by omega : 2 ^ K' < 2 ^ (K + 1))
  rw [hK]; congr 1; omega

theorem stdBitCeil_two_pow_succ_half (K : Nat) : stdBitCeil (2 ^ (K + 1)) / 2 = 2 ^ K := by
  rw [stdBitCeil_unique (K := K) (by rw [Nat.pow_succ]; have := Nat.two_pow_pos K; omega) (Nat.le_refl _)]
  rw [Nat.pow_succ]; omega

/-- Removing the top bit does not change the lower ones. -/
theorem descBits_sub_top {l K : Nat} (hb : l.testBit K = true) (hlt : l < 2 ^ (K + 1)) :
    descBits l K = bitsDesc (l - 2 ^ K) := by
  have hge : 2 ^ K ≤ l := Nat.ge_two_pow_of_testBit hb
  have hsub : l - 2 ^ K < 2 ^ K := by rw [Nat.pow_succ] at hlt; omega
  rw [← bitsDesc_eq _ K hsub]
  have : ∀ j, j ≤ K → descBits l j = descBits (l - 2 ^ K) j := by
    intro j hj
    induction j with
    | zero => rfl
    | succ j ihj =>
      have ht : l.testBit j = (l - 2 ^ K).testBit j := by
        conv => lhs; rw [show l = 2 ^ K + (l - 2 ^ K) by omega]
        rw [Nat.testBit_two_pow_add_gt (by omega)]
      simp only [descBits, ht]
      rw [ihj (by omega)]
  exact this _ (Nat.le_refl _)

theorem lt_of_testBit_false {l K : Nat} (hb : l.testBit K = false) (hlt : l < 2 ^ (K + 1)) : l < 2 ^ K := by
  apply Nat.lt_of_not_le
  intro hge
  have : l.testBit K = true := by
    rw [Nat.testBit_eq_decide_div_mod_eq]
    have : l / 2 ^ K = 1 := by
      rw [Nat.pow_succ] at hlt
      apply Nat.div_eq_of_lt_le <;> omega
    simp [this]
  rw [hb] at this; simp at this

end Vir
