import Verif.Lemmas.Simd
import Verif.Model.SimdWhere

namespace Vir.Simd

variable {α β : Type}

/-- Lane-wise description of a masked update: loop invariant. -/
theorem maskedUpdate_eq {f : Nat → α → Outcome α} {k : List Bool} {v r : List α} (hk : k.length = v.length)
    (hr : r.length = v.length)
    (h : ∀ i, ∀ hi : i < v.length, if k[i]'(by omega) then f i v[i] = .ok (r[i]'(by omega)) else r[i]'(by omega) = v[i]) :
    maskedUpdate f k v = .ok r := by
  unfold maskedUpdate
  obtain ⟨st, h1, h2⟩ := forUp_inv (fun i v => do
      if ← at' k i then do
        let x ← at' v i
        let y ← f i x
        wr v i y
      else .ok v) v.length 0 v (fun i st => st = r.take i ++ v.drop i) (by simp) (fun j st hj1 hj2 hst => by
    have hj : j < v.length := by omega
    have hlen : st.length = v.length := by rw [hst]; simp; omega
    have hget : st[j]'(by omega) = v[j] := by
      subst hst
      rw [List.getElem_append_right (by simp; omega), List.getElem_drop]
      congr 1; simp; omega
    have hjr : j < r.length := by omega
    have hset : st.set j r[j] = r.take (j + 1) ++ v.drop (j + 1) := by
      rw [hst, List.set_append_right _ _ (by simp; omega), List.take_succ_eq_append_getElem (by omega),
        List.drop_eq_getElem_cons hj]
      have : j - (r.take j).length = 0 := by simp; omega
      rw [this, List.set_cons_zero, List.append_assoc]
      rfl
    have := h j hj
    rw [at'_eq (show j < k.length by omega)]
    simp only [Outcome.bind_ok]
    by_cases hb : k[j]'(by omega) = true
    · rw [if_pos hb] at this ⊢
      rw [at'_eq (show j < st.length by omega), Outcome.bind_ok, hget, this, Outcome.bind_ok, wr, if_pos (by omega)]
      exact ⟨_, rfl, hset⟩
    · rw [if_neg hb] at this ⊢
      refine ⟨_, rfl, ?_⟩
      rw [← hset, this, ← hget, List.set_getElem_self])
  rw [h1, h2, List.take_of_length_le (by omega), List.drop_of_length_le (by omega), List.append_nil]

theorem maskedUpdate_some_ub {f : Nat → α → Outcome α} (P : UB → Prop) {k : List Bool} {v : List α} (hk : k.length = v.length)
    (h : ∀ i x, v[i]? = some x → k[i]? = some true → (∃ y, f i x = .ok y) ∨ ∃ u, P u ∧ f i x = .ub u)
    {j : Nat} {x : α} (hj : v[j]? = some x) (hkj : k[j]? = some true) (hu : ∃ u, f j x = .ub u) :
    ∃ u, P u ∧ maskedUpdate f k v = .ub u := by
  have hjl := (List.getElem?_eq_some_iff.1 hj).1
  unfold maskedUpdate
  have key : ∀ (c i : Nat) (st : List α), i + c = v.length → st.length = v.length → (∀ m, i ≤ m → st[m]? = v[m]?) → i ≤ j →
      ∃ u, P u ∧ forUp (fun i v => do
        if ← at' k i then do
          let x ← at' v i
          let y ← f i x
          wr v i y
        else .ok v) c i st = .ub u := by
    intro c
    induction c with
    | zero => intro i st h1 _ _ h4; omega
    | succ c ih =>
      intro i st h1 h2 h3 h4
      have hi : i < v.length := by omega
      have hsti : st[i]? = some v[i] := by rw [h3 i (Nat.le_refl _), List.getElem?_eq_getElem hi]
      have hat : at' st i = .ok v[i] := by simp [at', hsti]
      simp only [forUp, at'_eq (show i < k.length by omega), Outcome.bind_ok]
      by_cases hki : k[i]'(by omega) = true
      · rw [if_pos hki, hat, Outcome.bind_ok]
        rcases h i v[i] (List.getElem?_eq_getElem hi) (by rw [List.getElem?_eq_getElem (by omega), hki]) with ⟨y, hy⟩ | ⟨u, hP, hy⟩
        · have hne : i ≠ j := by
            rintro rfl
            rw [List.getElem?_eq_getElem hi, Option.some.injEq] at hj
            obtain ⟨u, hu⟩ := hu
            rw [hj, hu] at hy; exact absurd hy (by simp)
          rw [hy, Outcome.bind_ok, wr, if_pos (by omega), Outcome.bind_ok]
          refine ih (i + 1) _ (by omega) (by simpa using h2) (fun m hm => ?_) (by omega)
          rw [List.getElem?_set_ne (by omega)]
          exact h3 m (by omega)
        · exact ⟨u, hP, by rw [hy]; rfl⟩
      · rw [if_neg hki, Outcome.bind_ok]
        have hne : i ≠ j := by
          rintro rfl
          rw [List.getElem?_eq_getElem (by omega), Option.some.injEq] at hkj
          exact hki hkj
        exact ih (i + 1) st (by omega) h2 (fun m hm => h3 m (by omega)) (by omega)
  exact key v.length 0 v (by omega) rfl (fun _ _ => rfl) (by omega)

/-- The same for operations that are undefined in one way only. -/
theorem maskedUpdate_ub {f : Nat → α → Outcome α} {u : UB} {k : List Bool} {v : List α} (hk : k.length = v.length)
    (h : ∀ i x, v[i]? = some x → k[i]? = some true → (∃ y, f i x = .ok y) ∨ f i x = .ub u)
    {j : Nat} {x : α} (hj : v[j]? = some x) (hkj : k[j]? = some true) (hu : f j x = .ub u) :
    maskedUpdate f k v = .ub u := by
  obtain ⟨w, rfl, hw⟩ := maskedUpdate_some_ub (· = u) hk (fun i x h1 h2 => (h i x h1 h2).imp_right fun h => ⟨u, rfl, h⟩) hj hkj ⟨u, hu⟩
  exact hw

/-- Lane-wise description of a masked store: loop invariant. -/
theorem whereCopyTo_eq {cvt : α → β} {k : List Bool} {v : List α} {mem r : List β} {off : Nat}
    (hk : k.length = v.length) (hr : r.length = mem.length)
    (hsel : ∀ i, ∀ hi : i < v.length, k[i]'(by omega) = true → r[off + i]? = some (cvt v[i]))
    (hun : ∀ p, p < mem.length → (∀ i, off + i = p → k[i]? = some true → False) → r[p]? = mem[p]?) :
    whereCopyTo cvt k v mem off = .ok r := by
  unfold whereCopyTo
  obtain ⟨st, h1, h2⟩ := forUp_inv (fun i mem => do if ← at' k i then wr mem (off + i) (cvt (← at' v i)) else .ok mem)
    v.length 0 mem (fun i st => st = r.take (off + i) ++ mem.drop (off + i)) (by
      simp only [Nat.add_zero]
      refine (?_ : mem = _)
      conv => lhs; rw [← List.take_append_drop off mem]
      congr 1
      apply List.ext_getElem?
      intro p
      rw [List.getElem?_take, List.getElem?_take]
      split
      · rename_i hp
        by_cases hpm : p < mem.length
        · exact (hun p hpm (fun i hi _ => by omega)).symm
        · rw [List.getElem?_eq_none (by omega), List.getElem?_eq_none (by omega)]
      · rfl) (fun j st hj1 hj2 hst => by
    have hj : j < v.length := by omega
    have hlen : st.length = mem.length := by rw [hst]; simp; omega
    rw [at'_eq (show j < k.length by omega), at'_eq hj]
    simp only [Outcome.bind_ok]
    by_cases hb : k[j]'(by omega) = true
    · rw [if_pos hb]
      have hs := hsel j hj hb
      obtain ⟨hl, hg⟩ := List.getElem?_eq_some_iff.1 hs
      rw [wr, if_pos (by omega)]
      refine ⟨_, rfl, ?_⟩
      rw [hst, List.set_append_right _ _ (by simp; omega), show off + (j + 1) = off + j + 1 by omega,
        List.take_succ_eq_append_getElem hl, List.drop_eq_getElem_cons (show off + j < mem.length by omega), hg]
      have : off + j - (r.take (off + j)).length = 0 := by simp; omega
      rw [this, List.set_cons_zero, List.append_assoc]
      rfl
    · rw [if_neg hb]
      refine ⟨_, rfl, ?_⟩
      rw [hst]
      by_cases hp : off + j < mem.length
      · have he := hun (off + j) hp (fun i hi hki => by
          obtain rfl : i = j := by omega
          rw [List.getElem?_eq_getElem (by omega), Option.some.injEq] at hki
          exact hb hki)
        rw [show off + (j + 1) = off + j + 1 by omega, List.take_succ_eq_append_getElem (show off + j < r.length by omega),
          List.drop_eq_getElem_cons hp]
        rw [List.getElem?_eq_getElem (by omega), List.getElem?_eq_getElem hp, Option.some.injEq] at he
        simp [he]
      · rw [List.drop_of_length_le (by omega), List.drop_of_length_le (by omega), List.take_of_length_le (by omega),
          List.take_of_length_le (by omega)])
  rw [h1, h2]
  congr 1
  apply List.ext_getElem?
  intro p
  simp only [Nat.zero_add]
  by_cases hp : p < off + v.length
  · by_cases hpm : p < mem.length
    · rw [List.getElem?_append_left (by simp; omega), List.getElem?_take, if_pos hp]
    · rw [List.getElem?_eq_none (by simp; omega), List.getElem?_eq_none (by omega)]
  · by_cases hpm : p < mem.length
    · rw [List.getElem?_append_right (by simp; omega), List.getElem?_drop]
      rw [hun p hpm (fun i hi hki => by
        have := (List.getElem?_eq_some_iff.1 hki).1
        omega)]
      congr 1
      simp; omega
    · rw [List.getElem?_eq_none (by simp; omega), List.getElem?_eq_none (by omega)]

end Vir.Simd
