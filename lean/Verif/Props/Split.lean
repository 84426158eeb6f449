import Verif.Lemmas.SimdSplit

/-!
# C32: `split` and `concat`
-/

namespace Vir.Simd
open Spec

variable {α : Type}

/-- **C32.** `concat(xs...)` is the concatenation of the lanes in order. -/
theorem concat_spec (xs : List (List α)) : concat xs = .ok xs.flatten := concat_eq xs

/-- **C32.** `concat(array)` is the concatenation of the lanes in order, hence agrees with the pack form. -/
theorem concatArray_spec {k : Nat} (xs : List (List α)) (hk : ∀ a ∈ xs, a.length = k) :
    concatArray k xs = .ok xs.flatten ∧ concatArray k xs = concat xs := by
  rw [concatArray_eq xs hk, concat_eq]; exact ⟨rfl, rfl⟩

/-- **C32.** `split<Sizes...>(x)` yields the consecutive pieces of `x` of the requested sizes. -/
theorem splitSizes_spec {sizes : List Nat} {x : List α} (h : x.length = sizes.sum) :
    ∃ ps, splitSizes sizes x = .ok ps ∧ ps.map List.length = sizes ∧ ps.flatten = x :=
  ⟨_, splitSizes_eq h, cut_lengths _ _ h, cut_flatten _ _ h⟩

/-- **C32.** `split<V>(x)` yields the consecutive pieces of `x` of the width of `V`, in an array of `N / V::size()`. -/
theorem splitParts_spec {w : Nat} {x : List α} (h : w ∣ x.length) :
    ∃ ps, splitParts w x = .ok ps ∧ ps.length = x.length / w ∧ (∀ p ∈ ps, p.length = w) ∧ ps.flatten = x := by
  have h' : x.length = x.length / w * w := (Nat.div_mul_cancel h).symm
  have hs : x.length = (List.replicate (x.length / w) w).sum := by rw [List.sum_replicate_nat]; exact h'
  refine ⟨_, splitParts_eq h', by simp [cut_length], fun p hp => ?_, cut_flatten _ _ hs⟩
  have := cut_lengths _ _ hs
  have hm : p.length ∈ (cut (List.replicate (x.length / w) w) x).map List.length := List.mem_map_of_mem hp
  rw [this] at hm
  exact List.eq_of_mem_replicate hm

/-- **C32.** `concat` undoes `split<Sizes...>`. -/
theorem concat_splitSizes {sizes : List Nat} {x : List α} (h : x.length = sizes.sum) :
    (splitSizes sizes x >>= concat) = .ok x := by
  rw [splitSizes_eq h, Outcome.bind_ok, concat_eq, cut_flatten _ _ h]

/-- **C32.** `split<Sizes...>` undoes `concat`. -/
theorem splitSizes_concat (xs : List (List α)) :
    (concat xs >>= splitSizes (xs.map List.length)) = .ok xs := by
  rw [concat_eq, Outcome.bind_ok, splitSizes_eq (by rw [List.length_flatten]), cut_flatten']

/-- **C32.** `concat(array)` undoes `split<V>`. -/
theorem concatArray_splitParts {w : Nat} {x : List α} (h : w ∣ x.length) :
    (splitParts w x >>= concatArray w) = .ok x := by
  obtain ⟨ps, h1, _, h3, h4⟩ := splitParts_spec h
  rw [h1, Outcome.bind_ok, concatArray_eq ps h3, h4]

/-- **C32.** `split<V>` undoes `concat(array)`. -/
theorem splitParts_concatArray {w : Nat} (hw : 0 < w) (xs : List (List α)) (hk : ∀ a ∈ xs, a.length = w) :
    (concatArray w xs >>= splitParts w) = .ok xs := by
  have hm : xs.map List.length = List.replicate xs.length w := List.eq_replicate_iff.2 ⟨by simp, by simpa using hk⟩
  have hl : xs.flatten.length = xs.length * w := by rw [List.length_flatten, hm, List.sum_replicate_nat]
  have hd : xs.flatten.length / w = xs.length := by rw [hl, Nat.mul_div_cancel _ hw]
  rw [concatArray_eq xs hk, Outcome.bind_ok, splitParts_eq (by rw [hd, hl]), hd, ← hm, cut_flatten']

/-- **C32.** `split<V>(x)` for a `V` of the type of `x` is the general split into parts of this size. -/
theorem splitOne_spec {x : List α} (h : 0 < x.length) : splitOne x = splitParts x.length x := by
  rw [splitParts_eq (by rw [Nat.div_self h, Nat.one_mul]), Nat.div_self h]
  simp [splitOne, cut]

/-! ### the theorems are about something -/

example : splitSizes [2, 1, 3] [10, 11, 12, 13, 14, 15] = .ok [[10, 11], [12], [13, 14, 15]] := by decide
example : splitParts 2 [10, 11, 12, 13, 14, 15] = .ok [[10, 11], [12, 13], [14, 15]] := by decide
example : concat [[1, 2], [3], [4, 5, 6]] = .ok [1, 2, 3, 4, 5, 6] ∧ concatArray 2 [[1, 2], [3, 4]] = .ok [1, 2, 3, 4] := by
  decide
example : [10, 11, 12, 13, 14, 15].length = [2, 1, 3].sum ∧ 2 ∣ [10, 11, 12, 13, 14, 15].length := by decide

/-! ## The theorems applied to concrete data -/

example := concatArray_spec (k := 2) [[1, 2], [3, 4], [5, 6]] (by decide)
example := splitSizes_spec (sizes := [2, 1, 3]) (x := [10, 11, 12, 13, 14, 15]) rfl
example := splitParts_spec (w := 2) (x := [10, 11, 12, 13, 14, 15]) (by decide)
example := concat_splitSizes (sizes := [2, 1, 3]) (x := [10, 11, 12, 13, 14, 15]) rfl
example := concatArray_splitParts (w := 3) (x := [10, 11, 12, 13, 14, 15]) (by decide)
example := splitParts_concatArray (w := 2) (by decide) [[1, 2], [3, 4], [5, 6]] (by decide)

end Vir.Simd
