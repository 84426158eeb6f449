import Verif.Lemmas.Loops

namespace Vir
open Spec ForEach

variable {σ α : Type}

/-- The invocations of the constant-evaluated branch. -/
def constCallsOf (e : Env) (n : Nat) : List Call :=
  List.replicate (n / e.size) ⟨e.size, 1⟩ ++ singles (bitsDesc (n % e.size))

theorem elems_constCallsOf (e : Env) (n : Nat) : elems (constCallsOf e n) = n := by
  simp only [constCallsOf, elems_append, elems_replicate, elems_singles, bitsDesc_sum, Call.elems, Nat.mul_one]
  have := Nat.div_add_mod n e.size
  rw [Nat.mul_comm] at this; exact this

/-- The main loop of the constant-evaluated branch. -/
theorem const_loop {e : Env} (hs : 0 < e.size) (wb : Bool) (f : Callable σ α) (s : σ) (xs : List α) :
    whileLoop (fun first => decide (first + ((e.size : Int) - 1) < (xs.length : Int))) e.size
      (fun first => loadAndInvoke e wb f e.size false 1 first) (xs.length + 1) 0 (s, xs) =
      .ok (((xs.length / e.size * e.size : Nat) : Int),
        run f wb (List.replicate (xs.length / e.size) ⟨e.size, 1⟩) s xs) := by
  generalize hn : xs.length = n
  have h1 := Nat.div_mul_le_self n e.size
  have h2 := Nat.lt_mul_div_succ n hs
  rw [Nat.mul_succ, Nat.mul_comm] at h2
  generalize hq : n / e.size = q at h1 h2
  have hqn : q ≤ n := by
    have : q * 1 ≤ q * e.size := Nat.mul_le_mul_left q hs
    omega
  have := whileLoop_does f wb n ⟨e.size, 1⟩
    (fun first => decide (first + ((e.size : Int) - 1) < (n : Int)))
    (fun first => loadAndInvoke e wb f e.size false 1 first) (n + 1) 0 q
    (by
      intro i hi
      have hm := Nat.mul_le_mul_right e.size (show i + 1 ≤ q from hi)
      rw [Nat.succ_mul] at hm
      simp only [Call.elems, Nat.mul_one]
      exact does_loadAndInvoke e wb f e.size false 1 n _ (by simp) (by omega))
    (by
      intro i hi
      have hm := Nat.mul_le_mul_right e.size (show i + 1 ≤ q from hi)
      rw [Nat.succ_mul] at hm
      refine decide_eq_true ?_
      simp only [Call.elems, Nat.mul_one]
      omega)
    (by
      refine decide_eq_false ?_
      simp only [Call.elems, Nat.mul_one]
      omega)
    (by simp only [Call.elems, Nat.mul_one]; omega) (by omega) s [] xs rfl (by simpa using hn)
  have hel : Call.elems ⟨e.size, 1⟩ = e.size := by simp [Call.elems]
  rw [hel] at this
  simpa using this

theorem constForEach_eq_run {e : Env} (hs : 0 < e.size) (hce : e.constEval = true) {n : Nat}
    (hpt : e.strictPtr = true → n % e.size + 1 = e.size)
    (h2 : n = 0 ∨ e.size ≠ 2 ∨ n % 2 = 1) (has : e.pol.assumeMatchingSize = true → e.size ∣ n) (wb : Bool)
    (f : Callable σ α) (s : σ) (xs : List α) (hx : xs.length = n) :
    forEach e wb f s xs = .ok (run f wb (constCallsOf e n) s xs) := by
  subst hx
  unfold forEach
  by_cases hn0 : xs.length = 0
  · have : xs = [] := List.length_eq_zero_iff.1 hn0
    subst this
    simp [constCallsOf, run]
  have hassume : (e.pol.assumeMatchingSize && xs.length % e.size != 0) = false := by
    cases ha : e.pol.assumeMatchingSize
    · rfl
    · simp [Nat.mod_eq_zero_of_dvd (has ha)]
  simp only [hn0, if_false, hassume, Bool.false_eq_true, hce, if_true]
  rw [constLoop_eq hs hpt, const_loop hs]
  simp only [Outcome.bind_ok]
  have hle := Nat.div_mul_le_self xs.length e.size
  have el1 : elems (List.replicate (xs.length / e.size) (⟨e.size, 1⟩ : Call)) = xs.length / e.size * e.size := by
    simp [Call.elems]
  obtain ⟨o1, ho1, hr1, hc1⟩ := run_split f wb (List.replicate (xs.length / e.size) ⟨e.size, 1⟩) s xs (by omega)
  rw [constCallsOf, hc1]
  rw [el1] at ho1 hr1 ⊢
  generalize hS : run f wb (List.replicate (xs.length / e.size) ⟨e.size, 1⟩) s xs = R at hr1 ⊢
  obtain ⟨s1, m1⟩ := R
  simp only at hr1 ⊢
  subst hr1
  have hmod : xs.length % e.size = xs.length - xs.length / e.size * e.size := by
    have := Nat.div_add_mod xs.length e.size
    rw [Nat.mul_comm] at this; omega
  by_cases hs1 : e.size > 1
  · rw [if_pos hs1]
    obtain ⟨K, hK, hK1, hK2⟩ := stdBitCeil_spec hs1
    have hlt := Nat.mod_lt xs.length hs
    have := does_epilogue e wb f K e.size (xs.length % e.size) xs.length false hK1 hK2 hlt
      (by
        by_cases h0 : xs.length % e.size = 0
        · right
          refine ⟨hce, ?_⟩
          intro h
          rw [h] at h0
          omega
        · exact Or.inl h0) (by omega) (by simp) s1 o1 (List.drop (xs.length / e.size * e.size) xs)
      (by rw [ho1]; omega) (by simp; omega)
    simpa using this
  · have : xs.length % e.size = 0 := by
      rw [show e.size = 1 by omega]; exact Nat.mod_one _
    simp [hs1, this, run]

/-- The remaining case: width 2 and an even number of elements. -/
theorem constForEach_width2 {e : Env} (h2 : e.size = 2) (hce : e.constEval = true) (hpt : e.strictPtr = false) {n : Nat} (hn0 : n ≠ 0)
    (hev : n % 2 = 0) (f : Callable σ α) (s : σ) (xs : List α)
    (hx : xs.length = n) :
    ∃ last, xs = xs.dropLast ++ [last] ∧ forEach e false f s xs =
      .ok ((f.call (run f false (List.replicate (n / 2) ⟨2, 1⟩) s xs).1 [[last]]).1, xs) := by
  subst hx
  have hne : xs ≠ [] := by intro h; simp [h] at hn0
  refine ⟨xs.getLast hne, (List.dropLast_concat_getLast hne).symm, ?_⟩
  have hd : xs.drop (xs.length - 1) = [xs.getLast hne] := by
    conv => lhs; rw [← List.dropLast_concat_getLast hne]
    rw [List.drop_append_of_le_length (by simp)]
    simp
  unfold forEach
  have hassume : (e.pol.assumeMatchingSize && xs.length % e.size != 0) = false := by
    rw [h2]; simp [hev]
  simp only [hn0, if_false, hassume, Bool.false_eq_true, hce, if_true]
  rw [constLoop_eq (by omega) (by simp [hpt]), const_loop (by omega), h2]
  simp only [Outcome.bind_ok]
  rw [if_pos (by omega)]
  have h0 : (run f false (List.replicate (xs.length / 2) ⟨2, 1⟩) s xs).2 = xs :=
    run_false_snd _ _ _ _ (by simp [Call.elems]; omega)
  generalize hS : run f false (List.replicate (xs.length / 2) ⟨2, 1⟩) s xs = R at h0 ⊢
  obtain ⟨s1, m1⟩ := R
  simp only at h0
  subst h0
  unfold epilogue
  rw [dif_neg (by omega), if_pos rfl]
  have := does_single e false f 1 false m1.length (m1.length - 1) (by simp) (by omega) s1 (m1.take (m1.length - 1))
    (m1.drop (m1.length - 1)) (by simp) (by simp)
  rw [List.take_append_drop] at this
  rw [show ((m1.length : Int) - 1) = ((m1.length - 1 : Nat) : Int) by omega, this, hd]
  have hsplit : m1.take (m1.length - 1) ++ [m1.getLast hne] = m1 := by rw [← hd, List.take_append_drop]
  simp [singles, run, chunks, Call.elems, hsplit]

end Vir
