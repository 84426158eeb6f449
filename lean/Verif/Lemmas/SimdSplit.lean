import Verif.Lemmas.Simd
import Verif.Model.SimdSplit
import Verif.Spec.Split

namespace Vir.Simd
open Spec

variable {α : Type}

theorem packSubscript_eq (xs : List (List α)) (i : Nat) (x : α) (h : xs.flatten[i]? = some x) :
    packSubscript i xs = .ok x := by
  induction xs generalizing i with
  | nil => simp at h
  | cons a xs ih =>
    unfold packSubscript
    rw [List.flatten_cons] at h
    by_cases hi : i ≥ a.length
    · rw [if_pos hi]
      exact ih _ (by rwa [List.getElem?_append_right hi] at h)
    · rw [if_neg hi]
      rw [List.getElem?_append_left (by omega)] at h
      simp [at', h]

theorem concat_eq (xs : List (List α)) : concat xs = .ok xs.flatten :=
  gen_list (by rw [List.length_flatten]) fun j x hj => packSubscript_eq xs j x hj

theorem flatten_get {k : Nat} (xs : List (List α)) (hk : ∀ a ∈ xs, a.length = k) (i : Nat) (x : α)
    (h : xs.flatten[i]? = some x) : ∃ a, xs[i / k]? = some a ∧ a[i % k]? = some x := by
  induction xs generalizing i with
  | nil => simp at h
  | cons a xs ih =>
    have ha := hk a (by simp)
    have hk' : ∀ a ∈ xs, a.length = k := fun b hb => hk b (by simp [hb])
    rw [List.flatten_cons] at h
    by_cases hi : i < k
    · refine ⟨a, by rw [Nat.div_eq_of_lt hi]; rfl, ?_⟩
      rwa [List.getElem?_append_left (by omega), ← Nat.mod_eq_of_lt hi] at h
    · have hk0 : 0 < k := by
        rcases Nat.eq_zero_or_pos k with rfl | h0
        · rw [List.getElem?_append_right (by omega)] at h
          have : xs.flatten = [] := by simpa using fun b hb => List.length_eq_zero_iff.1 (hk' b hb)
          simp [this] at h
        · exact h0
      rw [List.getElem?_append_right (by omega), ha] at h
      obtain ⟨b, h1, h2⟩ := ih hk' (i - k) h
      obtain ⟨m, rfl⟩ : ∃ m, i = m + k := ⟨i - k, by omega⟩
      rw [Nat.add_sub_cancel] at h1 h2
      exact ⟨b, by rw [Nat.add_div_right _ hk0]; simpa using h1, by rwa [Nat.add_mod_right]⟩

theorem concatArray_eq {k : Nat} (xs : List (List α)) (hk : ∀ a ∈ xs, a.length = k) :
    concatArray k xs = .ok xs.flatten := by
  refine gen_list ?_ fun j x hj => ?_
  · rw [List.length_flatten]
    have : xs.map List.length = List.replicate xs.length k := List.eq_replicate_iff.2 ⟨by simp, by simpa using hk⟩
    rw [this, List.sum_replicate_nat]
  · obtain ⟨a, h1, h2⟩ := flatten_get xs hk j x hj
    simp [arr, h1, at', h2]

theorem offset_cons (n : Nat) (ns : List Nat) (i : Nat) : offset (n :: ns) (i + 1) = n + offset ns i := rfl

theorem cut_length (sizes : List Nat) (x : List α) : (cut sizes x).length = sizes.length := by
  induction sizes generalizing x with
  | nil => rfl
  | cons n ns ih => simp [cut, ih]

theorem cut_get (sizes : List Nat) (x : List α) (i : Nat) (p : List α) (h : (cut sizes x)[i]? = some p) :
    p = (x.drop (offset sizes i)).take (sizes.getD i 0) := by
  induction sizes generalizing x i with
  | nil => simp [cut] at h
  | cons n ns ih =>
    cases i with
    | zero => simp [cut] at h; simp [offset, h]
    | succ i =>
      simp only [cut, List.getElem?_cons_succ] at h
      rw [ih _ _ h, offset_cons, List.drop_drop]
      rfl

theorem offset_add_le (sizes : List Nat) (i : Nat) : offset sizes i + sizes.getD i 0 ≤ sizes.sum := by
  induction sizes generalizing i with
  | nil => simp [offset]
  | cons n ns ih =>
    cases i with
    | zero => simp [offset]
    | succ i =>
      rw [offset_cons]
      have := ih i
      simp only [List.getD_cons_succ, List.sum_cons]
      omega

theorem splitSizes_eq {sizes : List Nat} {x : List α} (h : x.length = sizes.sum) :
    splitSizes sizes x = .ok (cut sizes x) := by
  rw [splitSizes, if_pos h]
  refine gen_list (cut_length _ _) fun j p hp => ?_
  rw [load_eq (by rw [h]; exact offset_add_le sizes j), cut_get _ _ _ _ hp]

theorem offset_replicate (m w i : Nat) (hi : i ≤ m) : offset (List.replicate m w) i = i * w := by
  unfold offset
  rw [List.take_replicate, Nat.min_eq_left hi]
  have := List.sum_replicate_nat (n := i) (a := w)
  rwa [List.sum_eq_foldr] at this

theorem splitParts_eq {w : Nat} {x : List α} (h : x.length = x.length / w * w) :
    splitParts w x = .ok (cut (List.replicate (x.length / w) w) x) := by
  rw [splitParts, if_pos h]
  refine gen_list (by simp [cut_length]) fun j p hp => ?_
  have hj : j < x.length / w := by
    have := (List.getElem?_eq_some_iff.1 hp).1
    simpa [cut_length] using this
  rw [cut_get _ _ _ _ hp, offset_replicate _ _ _ (by omega), load_eq]
  · simp [hj]
  · have : (j + 1) * w ≤ x.length / w * w := Nat.mul_le_mul_right w (by omega)
    rw [Nat.add_mul, Nat.one_mul] at this
    omega

theorem cut_flatten (sizes : List Nat) (x : List α) (h : x.length = sizes.sum) : (cut sizes x).flatten = x := by
  induction sizes generalizing x with
  | nil => simpa [cut] using h
  | cons n ns ih =>
    simp only [List.sum_cons] at h
    rw [cut, List.flatten_cons, ih _ (by simp; omega), List.take_append_drop]

theorem cut_flatten' (xs : List (List α)) : cut (xs.map List.length) xs.flatten = xs := by
  induction xs with
  | nil => rfl
  | cons a xs ih => simp [cut, ih]

theorem cut_lengths (sizes : List Nat) (x : List α) (h : x.length = sizes.sum) : (cut sizes x).map List.length = sizes := by
  induction sizes generalizing x with
  | nil => rfl
  | cons n ns ih =>
    simp only [List.sum_cons] at h
    simp only [cut, List.map_cons, List.length_take]
    rw [ih _ (by simp; omega), Nat.min_eq_left (by omega)]

end Vir.Simd
