import Verif.Model.TransformReduce
import Verif.Lemmas.GSum
import Verif.Lemmas.Bits

namespace Vir
open Spec
namespace TransformReduce

variable {γ : Type}

theorem treeInner_length (r : γ → γ → γ) (U j : Nat) (acc : List γ) (ii : Nat) :
    (treeInner r U j acc ii).length = acc.length := by
  unfold treeInner
  simp only
  split
  · split <;> simp
  · rfl

/-- The effect of the first `m` iterations of the inner loop. -/
theorem treeInner_foldl (r : γ → γ → γ) (U j : Nat) (hj : 0 < j) (acc : List γ) (hU : acc.length = U) (m : Nat) :
    ((List.range m).foldl (treeInner r U j) acc).length = U ∧
    ∀ i, ((List.range m).foldl (treeInner r U j) acc)[i]? =
      if 2 * j ∣ i ∧ i < m * (2 * j) ∧ i + j < U then
        (acc[i]?).bind fun x => (acc[i + j]?).map fun y => r x y
      else acc[i]? := by
  induction m with
  | zero => simp [hU]
  | succ m ih =>
    obtain ⟨ihl, ih⟩ := ih
    rw [List.range_succ, List.foldl_append, List.foldl_cons, List.foldl_nil]
    generalize (List.range m).foldl (treeInner r U j) acc = acc' at ihl ih ⊢
    refine ⟨by rw [treeInner_length, ihl], ?_⟩
    intro i
    have hi0 : m * 2 * j = m * (2 * j) := Nat.mul_assoc _ _ _
    have hm1 : (m + 1) * (2 * j) = m * (2 * j) + 2 * j := Nat.succ_mul _ _
    unfold treeInner
    simp only [hi0, hm1]
    generalize hI : m * (2 * j) = I at *
    have hdI : 2 * j ∣ I := by rw [← hI]; exact Nat.dvd_mul_left _ _
    have hnd : ¬ 2 * j ∣ I + j := by
      intro h
      have h1 : 2 * j ∣ j := (Nat.dvd_add_right hdI).1 h
      have := Nat.le_of_dvd hj h1
      omega
    by_cases hlt : I + j < U
    · rw [if_pos hlt]
      have h1 : acc'[I]? = acc[I]? := by rw [ih I, if_neg (by omega)]
      have h2 : acc'[I + j]? = acc[I + j]? := by rw [ih (I + j), if_neg (by rintro ⟨h, _⟩; exact hnd h)]
      obtain ⟨x, hx⟩ : ∃ x, acc[I]? = some x := ⟨acc[I]'(by omega), by simp⟩
      obtain ⟨y, hy⟩ : ∃ y, acc[I + j]? = some y := ⟨acc[I + j]'(by omega), by simp⟩
      rw [h1, h2, hx, hy]
      simp only
      by_cases hii : i = I
      · subst hii
        rw [List.getElem?_set_self (by omega), if_pos ⟨hdI, by omega, hlt⟩, hx, hy]
        rfl
      · rw [List.getElem?_set_ne (by omega), ih i]
        congr 1
        apply propext
        constructor
        · rintro ⟨a, b, c⟩; exact ⟨a, by omega, c⟩
        · rintro ⟨a, b, c⟩
          refine ⟨a, ?_, c⟩
          apply Nat.lt_of_not_le
          intro hle
          have : 2 * j ∣ i - I := Nat.dvd_sub a hdI
          have := Nat.le_of_dvd (by omega) this
          omega
    · rw [if_neg hlt, ih i]
      congr 1
      apply propext
      constructor
      · rintro ⟨a, b, c⟩; exact ⟨a, by omega, c⟩
      · rintro ⟨a, b, c⟩
        refine ⟨a, ?_, c⟩
        omega

/-- After `o` outer steps every multiple of `2^o` holds the sum of the `2^o` accumulators from there on. -/
theorem treeStep_inv (r : γ → γ → γ) (U : Nat) (acc : List γ) (hU : acc.length = U) (o : Nat) :
    ((List.range o).foldl (treeStep r U) acc).length = U ∧
    ∀ i, i < U → 2 ^ o ∣ i → ∃ x, ((List.range o).foldl (treeStep r U) acc)[i]? = some x ∧
      GSum r ((acc.drop i).take (2 ^ o)) x := by
  induction o with
  | zero =>
    refine ⟨by simpa using hU, ?_⟩
    intro i hi _
    refine ⟨acc[i]'(by omega), by simp, ?_⟩
    rw [List.drop_eq_getElem_cons (by omega), Nat.pow_zero, List.take_succ_cons, List.take_zero]
    exact GSum.single _
  | succ o ih =>
    obtain ⟨ihl, ih⟩ := ih
    rw [List.range_succ, List.foldl_append, List.foldl_cons, List.foldl_nil]
    generalize (List.range o).foldl (treeStep r U) acc = acc' at ihl ih ⊢
    have hpos : 0 < 2 ^ o := Nat.two_pow_pos o
    obtain ⟨hl, hg⟩ := treeInner_foldl r U (2 ^ o) hpos acc' ihl (U / 2)
    refine ⟨hl, ?_⟩
    intro i hi hd
    unfold treeStep
    rw [hg i]
    have h2 : 2 ^ (o + 1) = 2 * 2 ^ o := by rw [Nat.pow_succ, Nat.mul_comm]
    have hdo : 2 ^ o ∣ i := Nat.dvd_trans (Nat.pow_dvd_pow 2 (by omega)) hd
    obtain ⟨x, hx, gx⟩ := ih i hi hdo
    by_cases hlt : i + 2 ^ o < U
    · have hbound : i < U / 2 * (2 * 2 ^ o) := by
        obtain ⟨c, hc⟩ := hd
        rw [h2] at hc
        have h3 : 2 * c + 1 < U := by
          have : (2 * c + 1) * 1 ≤ (2 * c + 1) * 2 ^ o := Nat.mul_le_mul_left _ hpos
          have e : (2 * c + 1) * 2 ^ o = i + 2 ^ o := by
            rw [hc, Nat.add_mul, Nat.one_mul, Nat.mul_right_comm]
          omega
        have h4 : c + 1 ≤ U / 2 := by omega
        have h5 : (c + 1) * (2 * 2 ^ o) ≤ U / 2 * (2 * 2 ^ o) := Nat.mul_le_mul_right _ h4
        rw [Nat.succ_mul, Nat.mul_comm c, ← hc] at h5
        omega
      rw [if_pos ⟨by rw [← h2]; exact hd, hbound, hlt⟩]
      obtain ⟨y, hy, gy⟩ := ih (i + 2 ^ o) hlt (Nat.dvd_add hdo (Nat.dvd_refl _))
      refine ⟨r x y, by simp [hx, hy], ?_⟩
      have hsplit : (acc.drop i).take (2 ^ (o + 1)) =
          (acc.drop i).take (2 ^ o) ++ (acc.drop (i + 2 ^ o)).take (2 ^ o) := by
        rw [h2, Nat.two_mul, List.take_add, List.drop_drop]
      rw [hsplit]
      exact GSum.node gx gy
    · rw [if_neg (by omega)]
      refine ⟨x, hx, ?_⟩
      rw [List.take_of_length_le (by rw [List.length_drop]; omega)] at gx ⊢
      · exact gx

theorem le_two_pow_bitWidth (U : Nat) : U ≤ 2 ^ stdBitWidth (U - 1) := by
  unfold stdBitWidth
  split
  · simp; omega
  · have := Nat.lt_log2_self (n := U - 1)
    omega

/-- The tree reduction leaves a generalized sum of all accumulators in `acc[0]`. -/
theorem treeReduce_gsum (r : γ → γ → γ) (acc : List γ) (h0 : acc ≠ []) :
    ∃ a rest, treeReduce r acc.length acc = a :: rest ∧ GSum r acc a := by
  have hpos : 0 < acc.length := List.length_pos_iff.2 h0
  obtain ⟨hl, hg⟩ := treeStep_inv r acc.length acc rfl (stdBitWidth (acc.length - 1))
  obtain ⟨x, hx, gx⟩ := hg 0 hpos (Nat.dvd_zero _)
  unfold treeReduce
  generalize (List.range (stdBitWidth (acc.length - 1))).foldl (treeStep r acc.length) acc = L at hl hx ⊢
  cases L with
  | nil => simp at hx
  | cons a rest =>
    simp only [List.getElem?_cons_zero, Option.some.injEq] at hx
    subst hx
    refine ⟨a, rest, rfl, ?_⟩
    rw [List.drop_zero, List.take_of_length_le (le_two_pow_bitWidth _)] at gx
    exact gx

end TransformReduce
end Vir
