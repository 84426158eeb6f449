import Verif.Lemmas.SimdSplit
import Verif.Lemmas.BitUtils
import Verif.Lemmas.MaskReductions
import Verif.Lemmas.GSum
import Verif.Model.SimdReduce
import Verif.Spec.Mask

namespace Vir.Simd
open Spec

variable {α : Type}

theorem foldl_gsum (op : α → α → α) (x : α) (xs : List α) : GSum op (x :: xs) (xs.foldl op x) := by
  suffices h : ∀ (xs pre : List α) (a : α), GSum op pre a → GSum op (pre ++ xs) (xs.foldl op a) by
    exact h xs [x] x (GSum.single x)
  intro xs
  induction xs with
  | nil => intro pre a h; simpa using h
  | cons y ys ih =>
    intro pre a h
    have := ih (pre ++ [y]) (op a y) (GSum.node h (GSum.single y))
    simpa using this

theorem reduceLoop_eq (op : α → α → α) (x : α) (xs : List α) :
    forUp (fun i r => do .ok (op r (← at' (x :: xs) i))) xs.length 1 x = .ok (xs.foldl op x) := by
  obtain ⟨st, h1, h2⟩ := forUp_inv (fun i r => do .ok (op r (← at' (x :: xs) i))) xs.length 1 x
    (fun i r => r = (xs.take (i - 1)).foldl op x) (by simp) (fun j st hj1 hj2 hst => by
      obtain ⟨j, rfl⟩ : ∃ m, j = m + 1 := ⟨j - 1, by omega⟩
      have hj : j < xs.length := by omega
      refine ⟨_, by rw [at'_eq (show j + 1 < (x :: xs).length by simp; omega)]; rfl, ?_⟩
      simp only [Nat.add_sub_cancel] at hst ⊢
      rw [List.take_succ_eq_append_getElem hj, List.foldl_append, ← hst]
      rfl)
  rw [h1, h2, List.take_of_length_le (by omega)]

theorem reduceF_gsum {vop : List α → List α → Outcome (List α)} {op : α → α → α}
    (hv : ∀ l r, l.length = r.length → vop l r = .ok (List.zipWith op l r)) (fuel : Nat) (v : List α)
    (h0 : v ≠ []) (hf : v.length ≤ fuel) (h64 : v.length < 2 ^ 64) :
    ∃ x, reduceF vop op fuel v = .ok x ∧ GSum op v x := by
  induction fuel generalizing v with
  | zero => exact absurd (List.length_eq_zero_iff.1 (by omega)) h0
  | succ fuel ih =>
    unfold reduceF
    simp only
    by_cases hn : v.length > 3
    · rw [if_pos hn]
      obtain ⟨k, hk1, hk2⟩ := BitUtils.exists_bracket (x := v.length / 2) (by omega)
      have hk : k < 64 := (Nat.pow_lt_pow_iff_right (a := 2) (by decide)).1 (by omega)
      rw [BitUtils.bitFloor_pow hk1 hk2 hk]
      simp only [Outcome.bind_ok]
      generalize hn2 : 2 ^ k = n2 at hk1 hk2
      rw [Nat.pow_succ, hn2] at hk2
      have hn2pos : 0 < n2 := hn2 ▸ Nat.two_pow_pos k
      have hle : 2 * n2 ≤ v.length := by omega
      have hz : VSum op (v.take n2 ++ (v.drop n2).take n2)
          (List.zipWith op (v.take n2) ((v.drop n2).take n2)) :=
        (VSum.refl op _).zip (VSum.refl op _) (by simp; omega)
      have hlr : (v.take n2).length = ((v.drop n2).take n2).length := by simp; omega
      have hzl : (List.zipWith op (v.take n2) ((v.drop n2).take n2)).length = n2 := by simp; omega
      by_cases hr : v.length - 2 * n2 > 0
      · rw [if_pos hr, splitSizes_eq (by simp; omega)]
        simp only [cut, Outcome.bind_ok, hv _ _ hlr]
        obtain ⟨a, ha1, ha2⟩ := ih (List.zipWith op (v.take n2) ((v.drop n2).take n2))
          (by rw [← List.length_pos_iff]; omega) (by omega) (by omega)
        obtain ⟨b, hb1, hb2⟩ := ih (((v.drop n2).drop n2).take (v.length - 2 * n2))
          (by rw [← List.length_pos_iff]; simp; omega) (by simp; omega) (by simp; omega)
        refine ⟨op a b, by simp only [ha1, hb1, Outcome.bind_ok], ?_⟩
        have := GSum.node (hz.reduce ha2) hb2
        rw [List.take_of_length_le (l := (v.drop n2).drop n2) (by simp; omega), List.append_assoc,
          List.take_append_drop, List.take_append_drop] at this
        exact this
      · rw [if_neg hr, splitSizes_eq (by simp; omega)]
        simp only [cut, Outcome.bind_ok, hv _ _ hlr]
        obtain ⟨a, ha1, ha2⟩ := ih (List.zipWith op (v.take n2) ((v.drop n2).take n2))
          (by rw [← List.length_pos_iff]; omega) (by omega) (by omega)
        refine ⟨a, ha1, ?_⟩
        have := hz.reduce ha2
        rw [List.take_of_length_le (l := v.drop n2) (by simp; omega), List.take_append_drop] at this
        exact this
    · rw [if_neg hn]
      cases v with
      | nil => exact absurd rfl h0
      | cons x xs =>
        rw [at'_eq (show 0 < (x :: xs).length by simp)]
        simp only [Outcome.bind_ok, List.getElem_cons_zero, List.length_cons, Nat.add_sub_cancel]
        exact ⟨_, reduceLoop_eq op x xs, foldl_gsum op x xs⟩

theorem reduceV_gsum {vop : List α → List α → Outcome (List α)} {op : α → α → α}
    (hv : ∀ l r, l.length = r.length → vop l r = .ok (List.zipWith op l r)) (v : List α) (h0 : v ≠ [])
    (h64 : v.length < 2 ^ 64) : ∃ x, reduceV vop op v = .ok x ∧ GSum op v x :=
  reduceF_gsum hv _ v h0 (Nat.le_refl _) h64

theorem binaryV_eq (f : α → α → α) (a b : List α) (h : a.length = b.length) :
    (gen a.length fun i => do .ok (f (← at' a i) (← at' b i))) = .ok (List.zipWith f a b) := by
  refine gen_list (by simp [h]) fun j x hj => ?_
  rw [List.getElem?_zipWith] at hj
  simp only [at']
  cases ha : a[j]? with
  | none => simp [ha] at hj
  | some y =>
    cases hb : b[j]? with
    | none => simp [hb] at hj
    | some z =>
      simp [ha, hb] at hj
      simp [hj]

theorem minV_eq (lt : α → α → Bool) (a b : List α) (h : a.length = b.length) :
    minV lt a b = .ok (List.zipWith (stdMin lt) a b) := binaryV_eq _ a b h

theorem maxV_eq (lt : α → α → Bool) (a b : List α) (h : a.length = b.length) :
    maxV lt a b = .ok (List.zipWith (stdMax lt) a b) := binaryV_eq _ a b h

theorem reduceMasked_eq (k : List Bool) (v : List α) (h : k.length = v.length) (identity : α) (op : α → α → α) :
    reduceMasked k v identity op = .ok ((selected k v).foldl op identity) := by
  unfold reduceMasked
  rw [anyOf_eq]
  simp only [Outcome.bind_ok]
  by_cases hany : true ∈ k
  · rw [if_pos (by simpa using hany)]
    obtain ⟨st, h1, h2⟩ := forUp_inv
      (fun i r => do if ← at' k i then .ok (op r (← at' v i)) else .ok r) v.length 0 identity
      (fun i r => r = (selected (k.take i) (v.take i)).foldl op identity) (by simp [selected]) (fun j st hj1 hj2 hst => by
        have hjv : j < v.length := by omega
        have hjk : j < k.length := by omega
        have hsel : selected (k.take (j + 1)) (v.take (j + 1)) =
            selected (k.take j) (v.take j) ++ (if k[j] then [v[j]] else []) := by
          unfold selected
          rw [List.take_succ_eq_append_getElem hjv, List.take_succ_eq_append_getElem hjk,
            List.zip_append (by simp; omega), List.filterMap_append]
          cases k[j] <;> rfl
        rw [hsel, List.foldl_append, ← hst]
        simp only [at'_eq hjv, at'_eq hjk, Outcome.bind_ok]
        cases k[j] with
        | true => exact ⟨_, rfl, rfl⟩
        | false => exact ⟨_, rfl, rfl⟩)
    rw [h1, h2, List.take_of_length_le (by omega), List.take_of_length_le (by omega)]
  · rw [if_neg (by simpa using hany)]
    have : selected k v = [] := by
      unfold selected
      rw [List.filterMap_eq_nil_iff]
      rintro ⟨b, x⟩ hb
      have := (List.of_mem_zip hb).1
      cases b with
      | true => exact absurd this hany
      | false => rfl
    rw [this]; rfl

end Vir.Simd
