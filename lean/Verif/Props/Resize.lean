import Verif.Model.Resize
import Verif.Lemmas.Simd

/-!
# C33: `simd_resize` and `simd_size_cast`
-/

namespace Vir.Spec

/-- `r` has `n` lanes, keeps the lanes of `x` that exist in both, and has `zero` in the others. -/
def Resized {α : Type} (zero : α) (n : Nat) (x r : List α) : Prop :=
  r.length = n ∧
    (∀ (i : Nat) (a : α), i < n → x[i]? = some a → r[i]? = some a) ∧
    (∀ i : Nat, x.length ≤ i → i < n → r[i]? = some zero)

end Vir.Spec

namespace Vir.Simd
open Spec

variable {α : Type}

private theorem resized (zero : α) (n : Nat) (x : List α) :
    ∃ r, (gen n fun i => if i < x.length then at' x i else .ok zero) = .ok r ∧ Resized zero n x r := by
  refine ⟨_, gen_eq n _ (fun i => x.getD i zero) fun j _ => ?_, by simp, fun i a hi hx => ?_, fun i h1 h2 => ?_⟩
  · split
    · rename_i h; simp [at', h]
    · rename_i h; simp [List.getElem?_eq_none (show x.length ≤ j by omega)]
  · simp [hi, hx]
  · simp [h2, List.getElem?_eq_none h1]

/-- **C33.** `simd_resize<N>` of a simd. -/
theorem simdResize_spec (zero : α) (n : Nat) (x : List α) :
    ∃ r, simdResize zero n x = .ok r ∧ Resized zero n x r := resized zero n x

/-- **C33.** `simd_resize<N>` of a mask. -/
theorem maskResize_spec (n : Nat) (x : List Bool) :
    ∃ r, maskResize n x = .ok r ∧ Resized false n x r := resized false n x

/-- **C33.** `simd_size_cast` of a simd, given that `static_cast<T>(false)` is `T()`. -/
theorem simdSizeCast_spec (zero : α) (conv : Bool → α) (hc : conv false = zero) (n : Nat) (x : List α) :
    ∃ r, simdSizeCast conv n x = .ok r ∧ Resized zero n x r := by
  subst hc; exact resized (conv false) n x

/-- **C33.** `simd_size_cast` of a mask. -/
theorem maskSizeCast_spec (n : Nat) (x : List Bool) :
    ∃ r, maskSizeCast n x = .ok r ∧ Resized false n x r := resized false n x

/-- The specification determines the result. -/
theorem resized_unique {zero : α} {n : Nat} {x r r' : List α} (h : Resized zero n x r) (h' : Resized zero n x r') :
    r = r' := by
  refine List.ext_getElem? fun i => ?_
  by_cases hi : i < n
  · by_cases hx : i < x.length
    · rw [h.2.1 i x[i] hi (List.getElem?_eq_getElem hx), h'.2.1 i x[i] hi (List.getElem?_eq_getElem hx)]
    · rw [h.2.2 i (by omega) hi, h'.2.2 i (by omega) hi]
  · rw [List.getElem?_eq_none (by rw [h.1]; omega), List.getElem?_eq_none (by rw [h'.1]; omega)]

/-- **C33.** `simd_size_cast` and `simd_resize` agree. -/
theorem sizeCast_eq_resize (zero : α) (conv : Bool → α) (hc : conv false = zero) (n : Nat) (x : List α) :
    simdSizeCast conv n x = simdResize zero n x := by
  obtain ⟨r, h1, h2⟩ := simdSizeCast_spec zero conv hc n x
  obtain ⟨r', h1', h2'⟩ := simdResize_spec zero n x
  rw [h1, h1', resized_unique h2 h2']

/-- **C33.** Growing to `n` lanes and shrinking back to the original number restores the value. -/
theorem resize_round_trip (zero : α) (n : Nat) (x : List α) (hn : x.length ≤ n) :
    (do simdResize zero x.length (← simdResize zero n x)) = .ok x := by
  obtain ⟨y, h1, h2⟩ := simdResize_spec zero n x
  obtain ⟨z, h3, h4⟩ := simdResize_spec zero x.length y
  rw [h1, Outcome.bind_ok, h3]
  congr 1
  refine List.ext_getElem? fun i => ?_
  by_cases hi : i < x.length
  · exact (h4.2.1 i _ hi (h2.2.1 i _ (by omega) (List.getElem?_eq_getElem hi))).trans (List.getElem?_eq_getElem hi).symm
  · rw [List.getElem?_eq_none (by rw [h4.1]; omega), List.getElem?_eq_none (by omega)]

/-- **C33.** Resizing in two steps, the first of which does not drop lanes that the second would keep, is resizing in
one step. -/
theorem resize_resize (zero : α) (m n : Nat) (x : List α) (h : n ≤ m ∨ x.length ≤ m) :
    (do simdResize zero n (← simdResize zero m x)) = simdResize zero n x := by
  obtain ⟨y, h1, h2⟩ := simdResize_spec zero m x
  obtain ⟨z, h3, h4⟩ := simdResize_spec zero n y
  obtain ⟨z', h5, h6⟩ := simdResize_spec zero n x
  rw [h1, Outcome.bind_ok, h3, h5, resized_unique (zero := zero) (n := n) (x := x) (r := z) ?_ h6]
  refine ⟨h4.1, fun i a hi hx => ?_, fun i h7 h8 => ?_⟩
  · have := (List.getElem?_eq_some_iff.1 hx).1
    exact h4.2.1 i a hi (h2.2.1 i a (by omega) hx)
  · by_cases hm : i < m
    · exact h4.2.1 i zero h8 (h2.2.2 i h7 hm)
    · exact h4.2.2 i (by rw [h2.1]; omega) h8

/-! ### the theorems are about something -/

example : simdResize (0 : Int) 5 [3, 1, 4] = .ok [3, 1, 4, 0, 0] := by decide
example : simdResize (0 : Int) 2 [3, 1, 4] = .ok [3, 1] := by decide
example : simdSizeCast (fun b => if b then (1 : Int) else 0) 4 [7] = .ok [7, 0, 0, 0] := by decide
example : maskResize 3 [true] = .ok [true, false, false] := by decide
example : [3, 1, 4].length ≤ 5 := by decide

/-! ## The theorems applied to concrete data -/

private def ofBool (b : Bool) : Int := if b then 1 else 0

example := simdSizeCast_spec 0 ofBool rfl 5 [3, 1, 4]
example := sizeCast_eq_resize 0 ofBool rfl 5 [3, 1, 4]
example := resize_round_trip (0 : Int) 5 [3, 1, 4] (by decide)
example := resize_resize (0 : Int) 4 9 [3, 1, 4] (.inr (by decide))

end Vir.Simd
