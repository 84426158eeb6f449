import Verif.Lemmas.Simd
import Verif.Model.MaskReductions

namespace Vir.Simd

/-- First index of a true lane, if any. -/
theorem exists_first (k : List Bool) (h : true ∈ k) :
    ∃ i, ∃ hi : i < k.length, k[i] = true ∧ ∀ j (hj : j < k.length), j < i → k[j] = false := by
  induction k with
  | nil => simp at h
  | cons b k ih =>
    cases b with
    | true => exact ⟨0, by simp, rfl, fun j _ hj => by omega⟩
    | false =>
      obtain ⟨i, hi, h1, h2⟩ := ih (by simpa using h)
      refine ⟨i + 1, by simpa using hi, by simpa using h1, fun j hj hji => ?_⟩
      cases j with
      | zero => rfl
      | succ j => simpa using h2 j (by simpa using hj) (by omega)

/-- Last index of a true lane, if any. -/
theorem exists_last (k : List Bool) (h : true ∈ k) :
    ∃ i, ∃ hi : i < k.length, k[i] = true ∧ ∀ j (hj : j < k.length), i < j → k[j] = false := by
  obtain ⟨i, hi, h1, h2⟩ := exists_first k.reverse (by simpa using h)
  simp only [List.length_reverse] at hi
  refine ⟨k.length - 1 - i, by omega, by simpa using h1, fun j hj hji => ?_⟩
  have := h2 (k.length - 1 - j) (by simp; omega) (by omega)
  simp only [List.getElem_reverse] at this
  rw [← this]; congr 1; omega

theorem all_false {k : List Bool} (h : true ∉ k) {j : Nat} (hj : j < k.length) : k[j] = false := by
  cases hb : k[j] with
  | false => rfl
  | true => exact absurd (hb ▸ List.getElem_mem hj) h

theorem anyOf_eq (k : List Bool) : anyOf k = .ok (decide (true ∈ k)) := by
  unfold anyOf
  by_cases h : true ∈ k
  · obtain ⟨i, hi, h1, h2⟩ := exists_first k h
    rw [searchUp_some (k := i) (x := true) ?_ (by omega) (by omega) ?_]
    · simp [h]
    · intro j _ hj; simp [at'_eq (show j < k.length by omega), h2 j (by omega) hj]
    · simp [at'_eq hi, h1]
  · rw [searchUp_none]
    · simp [h]
    · intro j _ hj; simp [at'_eq (show j < k.length by omega), all_false h (show j < k.length by omega)]

theorem noneOf_eq (k : List Bool) : noneOf k = .ok (decide (true ∉ k)) := by
  unfold noneOf
  by_cases h : true ∈ k
  · obtain ⟨i, hi, h1, h2⟩ := exists_first k h
    rw [searchUp_some (k := i) (x := false) ?_ (by omega) (by omega) ?_]
    · simp [h]
    · intro j _ hj; simp [at'_eq (show j < k.length by omega), h2 j (by omega) hj]
    · simp [at'_eq hi, h1]
  · rw [searchUp_none]
    · simp [h]
    · intro j _ hj; simp [at'_eq (show j < k.length by omega), all_false h (show j < k.length by omega)]

theorem allOf_eq (k : List Bool) : allOf k = .ok (decide (false ∉ k)) := by
  unfold allOf
  have hn : ∀ (k : List Bool), true ∈ k.map (!·) ↔ false ∈ k := by simp
  by_cases h : false ∈ k
  · obtain ⟨i, hi, h1, h2⟩ := exists_first (k.map (!·)) ((hn k).2 h)
    simp only [List.length_map] at hi
    rw [searchUp_some (k := i) (x := false) ?_ (by omega) (by omega) ?_]
    · simp [h]
    · intro j _ hj
      have := h2 j (by simp; omega) hj
      simp at this
      simp [at'_eq (show j < k.length by omega), this]
    · simp at h1
      simp [at'_eq hi, h1]
  · rw [searchUp_none]
    · simp [h]
    · intro j _ hj
      have := all_false (mt (hn k).1 h) (j := j) (by simp; omega)
      simp at this
      simp [at'_eq (show j < k.length by omega), this]

theorem someOf_eq (k : List Bool) (h0 : k ≠ []) : someOf k = .ok (decide (true ∈ k ∧ false ∈ k)) := by
  cases k with
  | nil => exact absurd rfl h0
  | cons b k =>
    unfold someOf
    rw [at'_eq (show 0 < (b :: k).length by simp)]
    simp only [Outcome.bind_ok, List.getElem_cons_zero]
    have hd : (true ∈ b :: k ∧ false ∈ b :: k) ↔ true ∈ k.map (b != ·) := by cases b <;> simp
    by_cases h : true ∈ k.map (b != ·)
    · obtain ⟨i, hi, h1, h2⟩ := exists_first _ h
      simp only [List.length_map] at hi
      rw [searchUp_some (k := i + 1) (x := true) ?_ (by omega) (by simp; omega) ?_, decide_eq_true (hd.2 h)]
      · intro j hj1 hj2
        have := h2 (j - 1) (by simp; omega) (by omega)
        obtain ⟨j, rfl⟩ : ∃ m, j = m + 1 := ⟨j - 1, by omega⟩
        rw [at'_eq (show j + 1 < (b :: k).length by simp; omega)]
        simp only [Nat.add_sub_cancel, List.getElem_map] at this
        simpa using this
      · rw [at'_eq (show i + 1 < (b :: k).length by simp; omega)]
        simp only [List.getElem_map] at h1
        simpa using h1
    · rw [searchUp_none, decide_eq_false (mt hd.1 h)]
      intro j hj1 hj2
      obtain ⟨j, rfl⟩ : ∃ m, j = m + 1 := ⟨j - 1, by omega⟩
      have hj : j < k.length := by simp at hj2; omega
      have := all_false h (j := j) (by simpa using hj)
      rw [at'_eq (show j + 1 < (b :: k).length by simp; omega)]
      simp only [List.getElem_map] at this
      simpa using this

theorem popcount_eq (k : List Bool) (h0 : k ≠ []) : popcount k = .ok (k.count true) := by
  cases k with
  | nil => exact absurd rfl h0
  | cons b k =>
    unfold popcount
    rw [at'_eq (show 0 < (b :: k).length by simp)]
    simp only [Outcome.bind_ok, List.getElem_cons_zero]
    obtain ⟨st, h1, h2⟩ := forUp_inv (fun i cnt => do .ok (cnt + (← at' (b :: k) i).toNat)) ((b :: k).length - 1) 1 b.toNat
      (fun i c => c = ((b :: k).take i).count true) (by cases b <;> rfl) (fun j st hj1 hj2 hst => by
        have hj : j < (b :: k).length := by simp at hj2; simp; omega
        refine ⟨_, by simp only [at'_eq hj, Outcome.bind_ok]; rfl, ?_⟩
        rw [List.take_succ_eq_append_getElem hj, List.count_append, hst]
        cases (b :: k)[j] <;> simp)
    rw [h1, h2, List.take_of_length_le (by simp; omega)]

theorem findFirstSet_eq {k : List Bool} {i : Nat} (hi : i < k.length) (h1 : k[i] = true)
    (h2 : ∀ j (hj : j < k.length), j < i → k[j] = false) : findFirstSet k = .ok i := by
  have hm : true ∈ k := h1 ▸ List.getElem_mem hi
  unfold findFirstSet
  simp only [anyOf_eq, Outcome.bind_ok, hm, decide_true, Bool.not_true, Bool.false_eq_true, if_false]
  refine searchUp_some (k := i) ?_ (by omega) (by omega) ?_
  · intro j _ hj; simp [at'_eq (show j < k.length by omega), h2 j (by omega) hj]
  · simp [at'_eq hi, h1]

theorem findLastSet_eq {k : List Bool} {i : Nat} (hi : i < k.length) (h1 : k[i] = true)
    (h2 : ∀ j (hj : j < k.length), i < j → k[j] = false) : findLastSet k = .ok i := by
  have hm : true ∈ k := h1 ▸ List.getElem_mem hi
  unfold findLastSet
  simp only [anyOf_eq, Outcome.bind_ok, hm, decide_true, Bool.not_true, Bool.false_eq_true, if_false]
  refine searchDown_some (k := i) ?_ (by omega) ?_
  · intro j hj hj2; simp [at'_eq (show j < k.length by omega), h2 j (by omega) hj]
  · simp [at'_eq hi, h1]

end Vir.Simd
