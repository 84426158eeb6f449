import Verif.Lemmas.MaskReductions

/-!
# C35, C36: reductions of `simd_mask`
-/

namespace Vir.Simd

/-- **C35.** `all_of(k)`: every lane is true. -/
theorem all_of_iff (k : List Bool) : ∃ b, allOf k = .ok b ∧ (b = true ↔ ∀ x ∈ k, x = true) := by
  refine ⟨_, allOf_eq k, ?_⟩
  simp only [decide_eq_true_eq]
  constructor
  · intro h x hx; cases x with
    | true => rfl
    | false => exact absurd hx h
  · intro h hf; exact absurd (h _ hf) (by decide)

/-- **C35.** `any_of(k)`: some lane is true. -/
theorem any_of_iff (k : List Bool) : ∃ b, anyOf k = .ok b ∧ (b = true ↔ ∃ x ∈ k, x = true) :=
  ⟨_, anyOf_eq k, by simp⟩

/-- **C35.** `none_of(k)`: no lane is true. -/
theorem none_of_iff (k : List Bool) : ∃ b, noneOf k = .ok b ∧ (b = true ↔ ¬ ∃ x ∈ k, x = true) :=
  ⟨_, noneOf_eq k, by simp⟩

/-- **C35.** `some_of(k)`: some lane is true and some lane is false. -/
theorem some_of_iff (k : List Bool) (h0 : k ≠ []) :
    ∃ b, someOf k = .ok b ∧ (b = true ↔ (∃ x ∈ k, x = true) ∧ ∃ x ∈ k, x = false) :=
  ⟨_, someOf_eq k h0, by simp⟩

/-- **C35.** `popcount(k)`: the number of lanes that are true. -/
theorem popcount_spec (k : List Bool) (h0 : k ≠ []) : popcount k = .ok (k.filter (· = true)).length := by
  rw [popcount_eq k h0, ← List.countP_eq_length_filter, List.count]
  simp

/-- **C35.** The reductions of one mask are consistent with each other. -/
theorem mask_reductions_consistent (k : List Bool) (h0 : k ≠ []) :
    ∃ al an no so n, allOf k = .ok al ∧ anyOf k = .ok an ∧ noneOf k = .ok no ∧ someOf k = .ok so ∧ popcount k = .ok n ∧
      al = decide (n = k.length) ∧ an = decide (0 < n) ∧ no = decide (n = 0) ∧ so = decide (0 < n ∧ n < k.length) := by
  refine ⟨_, _, _, _, _, allOf_eq k, anyOf_eq k, noneOf_eq k, someOf_eq k h0, popcount_eq k h0, ?_, ?_, ?_, ?_⟩
  all_goals
    have hle : k.count true ≤ k.length := List.count_le_length
    have h1 : false ∉ k ↔ k.count true = k.length := by
      rw [List.count_eq_length]
      constructor
      · intro h b hb; cases b with
        | true => rfl
        | false => exact absurd hb h
      · intro h hf; exact absurd (h _ hf) (by decide)
    have h2 : true ∈ k ↔ 0 < k.count true := List.count_pos_iff.symm
    apply decide_eq_decide.2
  · exact h1
  · exact h2
  · rw [h2]; omega
  · rw [h2, ← Decidable.not_not (p := false ∈ k), h1]; omega

/-- **C35.** The overloads for the scalar ABI and for `bool` agree with a mask of width one. -/
theorem mask_reductions_scalar (b : Bool) :
    allOfScalar b = allOf [b] ∧ anyOfScalar b = anyOf [b] ∧ noneOfScalar b = noneOf [b] ∧
      someOfScalar b = someOf [b] ∧ popcountScalar b = popcount [b] ∧ findFirstSetScalar b = findFirstSet [b] ∧
      findLastSetScalar b = findLastSet [b] ∧ allOfBool b = allOf [b] ∧ anyOfBool b = anyOf [b] ∧
      noneOfBool b = noneOf [b] ∧ someOfBool b = someOf [b] ∧ popcountBool b = popcount [b] := by
  cases b <;> decide

/-- **C36.** `find_first_set(k)` is the index of a true lane before which all lanes are false; it traps if no lane is
true. -/
theorem find_first_set_spec (k : List Bool) :
    (∃ i, findFirstSet k = .ok i ∧ k[i]? = some true ∧ ∀ j < i, k[j]? = some false) ∨
      (findFirstSet k = .trap ∧ ∀ x ∈ k, x = false) := by
  by_cases h : true ∈ k
  · obtain ⟨i, hi, h1, h2⟩ := exists_first k h
    refine .inl ⟨i, findFirstSet_eq hi h1 h2, by simp [hi, h1], fun j hj => ?_⟩
    have hj' : j < k.length := by omega
    simp [hj', h2 j hj' hj]
  · refine .inr ⟨by simp [findFirstSet, anyOf_eq, h], fun x hx => ?_⟩
    cases x with
    | false => rfl
    | true => exact absurd hx h

/-- **C36.** `find_last_set(k)` is the index of a true lane after which all lanes are false; it traps if no lane is
true. -/
theorem find_last_set_spec (k : List Bool) :
    (∃ i, findLastSet k = .ok i ∧ k[i]? = some true ∧ ∀ j, i < j → j < k.length → k[j]? = some false) ∨
      (findLastSet k = .trap ∧ ∀ x ∈ k, x = false) := by
  by_cases h : true ∈ k
  · obtain ⟨i, hi, h1, h2⟩ := exists_last k h
    refine .inl ⟨i, findLastSet_eq hi h1 h2, by simp [hi, h1], fun j hj hj' => ?_⟩
    simp [hj', h2 j hj' hj]
  · refine .inr ⟨by simp [findLastSet, anyOf_eq, h], fun x hx => ?_⟩
    cases x with
    | false => rfl
    | true => exact absurd hx h

/-- **C36.** The `bool` overloads agree with a mask of width one exactly if the value is true: they do not check their
precondition. -/
theorem find_set_bool (b : Bool) :
    (findFirstSetBool b = findFirstSet [b] ↔ b = true) ∧ (findLastSetBool b = findLastSet [b] ↔ b = true) := by
  cases b <;> decide

/-! ### the theorems are about something -/

example : allOf [true, false, true] = .ok false ∧ anyOf [true, false, true] = .ok true ∧
    noneOf [true, false, true] = .ok false ∧ someOf [true, false, true] = .ok true ∧
    popcount [true, false, true] = .ok 2 := by decide
example : findFirstSet [false, true, true, false] = .ok 1 ∧ findLastSet [false, true, true, false] = .ok 2 ∧
    findLastSet [false, false] = .trap := by decide
example : ([true, false, true] : List Bool) ≠ [] := by decide

/-! ## The theorems applied to concrete data -/

example := some_of_iff [true, false, true] (by simp)
example := popcount_spec [true, false, true] (by simp)
example := mask_reductions_consistent [true, false, true] (by simp)

end Vir.Simd
