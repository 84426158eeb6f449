import Verif.Model.Iota
import Verif.Lemmas.Simd
import Verif.Lemmas.CInt

/-!
# C46: `iota_v`
-/

namespace Vir.Simd

variable {α : Type}

/-- **C46.** Lane `i` of `iota_v<simd<T>>` is `static_cast<T>(i)`, for every width an `int` can count. -/
theorem iotaSimd_spec (conv : Int → α) (n : Nat) (hn : n ≤ 2 ^ 31) :
    iotaSimd conv n = .ok ((List.range n).map fun i : Nat => conv (i : Int)) := by
  refine gen_eq _ _ _ fun j hj => ?_
  refine congrArg (fun x => Outcome.ok (conv x)) ?_
  have : ((j : Int)) < 2 ^ 31 := by exact_mod_cast Nat.lt_of_lt_of_le hj hn
  rw [Int.bmod_eq_of_le] <;> simp <;> omega

/-- **C46.** Lane `i` of `iota_v<simd<T>>` is `i`, for every integer type that can hold all lane numbers. -/
theorem iotaSimd_int (t : IntTy) (ht : 0 < t.bits) (n : Nat) (hn : n ≤ 2 ^ 31) (hfit : (n : Int) - 1 ≤ t.max) :
    ∃ r, iotaSimd t.conv n = .ok r ∧ r.length = n ∧ ∀ i : Nat, i < n → r[i]? = some (i : Int) := by
  refine ⟨_, iotaSimd_spec t.conv n hn, by simp, fun i hi => ?_⟩
  have hlow : t.lowest ≤ 0 := by
    unfold IntTy.lowest
    have : (0 : Int) < 2 ^ (t.bits - 1) := Int.pow_pos (by decide)
    split <;> omega
  have : t.Has (i : Int) := ⟨by omega, by omega⟩
  simp [hi, IntTy.conv_of_has ht this]

/-- **C46.** For element types in general (floating-point types, say): if the conversion of the lane number keeps its
value then lane `i` has the value `i`. -/
theorem iotaSimd_value (conv : Int → α) (val : α → Int) (n : Nat) (hn : n ≤ 2 ^ 31)
    (hc : ∀ i : Nat, i < n → val (conv i) = i) :
    ∃ r, iotaSimd conv n = .ok r ∧ r.length = n ∧ ∀ (i : Nat) (x : α), r[i]? = some x → val x = i := by
  refine ⟨_, iotaSimd_spec conv n hn, by simp, fun i x hx => ?_⟩
  obtain ⟨hi, hx⟩ := List.getElem?_eq_some_iff.1 hx
  simp only [List.length_map, List.length_range] at hi
  simp only [List.getElem_map, List.getElem_range] at hx
  rw [← hx, hc i hi]

/-- **C46.** The array variants hold the same values as the simd, the scalar variant is lane zero. -/
theorem iota_agree (conv : Int → α) (n : Nat) (hn : n ≤ 2 ^ 31) :
    iotaSimd conv n = .ok (iotaArray conv n) ∧ iotaCArray conv n = iotaArray conv n ∧
      (0 < n → (iotaArray conv n)[0]? = some (iotaScalar (conv 0))) := by
  refine ⟨iotaSimd_spec conv n hn, rfl, fun h => ?_⟩
  simp [iotaArray, iotaScalar, h]

/-- **C46, limit of the claim.** A type that cannot hold all lane numbers: lane 128 of 129 `signed char` lanes. -/
theorem iota_wraps : ∃ r, iotaSimd IntTy.i8.conv 129 = .ok r ∧ r[128]? = some (-128) := by
  refine ⟨_, iotaSimd_spec _ _ (by decide), by decide +kernel⟩

/-! ### the theorems are about something -/

example : iotaSimd IntTy.i8.conv 4 = .ok [0, 1, 2, 3] := by decide
example : (128 : Int) - 1 ≤ IntTy.i8.max ∧ 128 ≤ 2 ^ 31 := by decide

/-! ## The theorems applied to concrete data -/

example := iotaSimd_spec IntTy.i8.conv 128 (by decide)
example := iotaSimd_int .i8 (by decide) 128 (by decide) (by decide)
example := iotaSimd_value IntTy.i8.conv id 4 (by decide) (by decide)
example := iota_agree IntTy.i8.conv 128 (by decide)

end Vir.Simd
