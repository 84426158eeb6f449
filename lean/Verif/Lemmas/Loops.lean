import Verif.Lemmas.Logged

/-! Generic facts about the loop and prologue combinators, used for `transform` and `transform_reduce`. -/

namespace Vir
open ForEach

/-- A counted loop whose states are known. -/
theorem whileLoop_seq {S : Type} (cond : Int → Bool) (step : Nat) (body : Int → S → Outcome S) (T : Nat → S)
    (fuel p q : Nat)
    (hbody : ∀ i, i < q → body ((p + i * step : Nat) : Int) (T i) = .ok (T (i + 1)))
    (hcond : ∀ i, i < q → cond ((p + i * step : Nat) : Int) = true)
    (hend : cond ((p + q * step : Nat) : Int) = false) (hf : q < fuel) :
    whileLoop cond step body fuel (p : Int) (T 0) = .ok (((p + q * step : Nat) : Int), T q) := by
  induction q generalizing p fuel T with
  | zero =>
    cases fuel with
    | zero => omega
    | succ fuel =>
      simp only [Nat.zero_mul, Nat.add_zero] at hend ⊢
      simp [whileLoop, hend]
  | succ q ih =>
    cases fuel with
    | zero => omega
    | succ fuel =>
      have hc := hcond 0 (by omega)
      have hb := hbody 0 (by omega)
      simp only [Nat.zero_mul, Nat.add_zero] at hc hb
      simp only [whileLoop, hc, if_true, hb, Outcome.bind_ok]
      have key : ∀ i, p + step + i * step = p + (i + 1) * step := by
        intro i; rw [Nat.succ_mul]; omega
      have := ih (fun i => T (i + 1)) fuel (p + step) (fun i hi => by rw [key]; exact hbody (i + 1) (by omega))
        (fun i hi => by rw [key]; exact hcond (i + 1) (by omega)) (by rw [key]; exact hend) (by omega)
      rw [Int.natCast_add, key] at this
      simpa using this

/-- The loop of the constant-evaluated branch from one multiple of the width on; in the strict pointer model the last test must not form
a pointer past the end. -/
theorem constLoop_from {S : Type} {e : Env} {n : Nat} (hs : 0 < e.size) (hp : e.strictPtr = true → n % e.size + 1 = e.size)
    (body : Int → S → Outcome S) (fuel i : Nat) (hi : i ≤ n / e.size) (st : S) :
    constLoop e n body fuel ((i * e.size : Nat) : Int) st =
      whileLoop (fun first => decide (first + ((e.size : Int) - 1) < (n : Int))) e.size body fuel ((i * e.size : Nat) : Int) st := by
  have hdm := Nat.div_add_mod n e.size
  rw [Nat.mul_comm] at hdm
  have hlt := Nat.mod_lt n hs
  induction fuel generalizing i st with
  | zero => rfl
  | succ fuel ih =>
    have hm := Nat.mul_le_mul_right e.size hi
    have hb : (e.strictPtr && decide (((i * e.size : Nat) : Int) + ((e.size : Int) - 1) > n)) = false := by
      cases h : e.strictPtr with
      | false => rfl
      | true =>
        have := hp h
        rw [Bool.true_and]
        exact decide_eq_false (by omega)
    simp only [constLoop, whileLoop, hb, Bool.false_eq_true, if_false, decide_eq_true_eq]
    by_cases hc : ((i * e.size : Nat) : Int) + ((e.size : Int) - 1) < n
    · rw [if_pos hc, if_pos hc]
      have hi' : i + 1 ≤ n / e.size := by
        rcases Nat.lt_or_ge i (n / e.size) with h | h
        · exact h
        · have : i = n / e.size := by omega
          rw [this] at hc
          omega
      congr 1
      funext st'
      have := ih (i + 1) hi' st'
      rw [Nat.succ_mul, Int.natCast_add] at this
      exact this
    · rw [if_neg hc, if_neg hc]

theorem constLoop_eq {S : Type} {e : Env} {n : Nat} (hs : 0 < e.size) (hp : e.strictPtr = true → n % e.size + 1 = e.size)
    (body : Int → S → Outcome S) (fuel : Nat) (st : S) :
    constLoop e n body fuel 0 st =
      whileLoop (fun first => decide (first + ((e.size : Int) - 1) < (n : Int))) e.size body fuel 0 st := by
  have := constLoop_from hs hp body fuel 0 (Nat.zero_le _) st
  simpa using this

/-- If the last test forms a pointer past the end, the loop is undefined. -/
theorem constLoop_bad {S : Type} {e : Env} {n : Nat} (hs : 0 < e.size) (hp : e.strictPtr = true) (hn : n % e.size + 1 ≠ e.size)
    (body : Int → S → Outcome S) (hb : ∀ p st, body p st ≠ .trap) (fuel i : Nat) (hi : i ≤ n / e.size) (st : S) :
    ∃ u, constLoop e n body fuel ((i * e.size : Nat) : Int) st = .ub u := by
  have hdm := Nat.div_add_mod n e.size
  rw [Nat.mul_comm] at hdm
  have hlt := Nat.mod_lt n hs
  induction fuel generalizing i st with
  | zero => exact ⟨_, rfl⟩
  | succ fuel ih =>
    have hm := Nat.mul_le_mul_right e.size hi
    simp only [constLoop, hp, Bool.true_and, decide_eq_true_eq]
    split
    · exact ⟨_, rfl⟩
    · split
      · have hi' : i + 1 ≤ n / e.size := by
          rcases Nat.lt_or_ge i (n / e.size) with h | h
          · exact h
          · have : i = n / e.size := by omega
            subst this
            omega
        cases hst : body ((i * e.size : Nat) : Int) st with
        | ok st' =>
          have := ih (i + 1) hi' st'
          rw [Nat.succ_mul, Int.natCast_add] at this
          exact this
        | ub u => exact ⟨u, rfl⟩
        | trap => exact absurd hst (hb _ _)
      · rename_i h1 h2
        have : i = n / e.size := by
          rcases Nat.lt_or_ge i (n / e.size) with h | h
          · have := Nat.mul_le_mul_right e.size (show i + 1 ≤ n / e.size from h)
            rw [Nat.succ_mul] at this
            omega
          · omega
        subst this
        omega

/-- `constLoop` with known states. -/
theorem constLoop_seq {S : Type} {e : Env} (hs : 0 < e.size) (n : Nat) (hp : e.strictPtr = true → n % e.size + 1 = e.size)
    (body : Int → S → Outcome S) (T : Nat → S)
    (hbody : ∀ i, i < n / e.size → body ((i * e.size : Nat) : Int) (T i) = .ok (T (i + 1))) :
    constLoop e n body (n + 1) 0 (T 0) = .ok (((n / e.size * e.size : Nat) : Int), T (n / e.size)) := by
  rw [constLoop_eq hs hp]
  have h1 := Nat.div_mul_le_self n e.size
  have h2 := Nat.lt_mul_div_succ n hs
  rw [Nat.mul_succ, Nat.mul_comm] at h2
  generalize hq : n / e.size = q at *
  have hqn : q ≤ n := by
    have : q * 1 ≤ q * e.size := Nat.mul_le_mul_left q hs
    omega
  have := whileLoop_seq (fun first => decide (first + ((e.size : Int) - 1) < (n : Int))) e.size body T (n + 1) 0 q
    (fun i hi => by simpa using hbody i hi)
    (fun i hi => by
      have hm := Nat.mul_le_mul_right e.size (show i + 1 ≤ q from hi)
      rw [Nat.succ_mul] at hm
      refine decide_eq_true ?_; omega)
    (by refine decide_eq_false ?_; omega) (by omega)
  simpa using this

/-- The prologue phase for any `do_prologue`. -/
theorem runPrologue_gen {S : Type} {e : Env} (wf : e.WF) {n : Nat} (hf : e.Fits n) (hp : proCount e n ≤ n)
    (doPro : Nat → Nat → S → Outcome S) (st st' : S)
    (h1 : proCount e n ≠ 0 → ∀ K, ProInfo e K → proCount e n < 2 ^ K →
      e.al e.size ∣ e.addr + proCount e n * e.sz → doPro (2 ^ K) (proCount e n) st = .ok st')
    (h0 : proCount e n = 0 → st' = st) :
    runPrologue e n doPro 0 st = .ok (((proCount e n : Nat) : Int), n - proCount e n, st') := by
  have hsz := wf.sz_pos
  have hn : n < 2 ^ 64 := by
    have : n * 1 ≤ n * e.sz := Nat.mul_le_mul_left n hsz
    unfold Env.Fits at hf; omega
  have hmul : (n * e.sz) % sizeT = n * e.sz := Nat.mod_eq_of_lt hf
  have hsub : ∀ t, t ≤ n → (n + sizeT - t) % sizeT = n - t := by
    intro t ht
    rw [show n + sizeT - t = (n - t) + sizeT by omega, Nat.add_mod_right, Nat.mod_eq_of_lt]
    unfold sizeT; omega
  have pro : prologuePossible e = true → misalignedBytes e ≠ 0 → proCount e n = toProcess e →
      doPro (maxMisalignment e) (toProcess e) st = .ok st' := by
    intro h2 h3 h4
    obtain ⟨K, hK⟩ := proInfo wf h2
    rw [hK.max, ← h4]
    have := hK.tp_pos h3
    exact h1 (by omega) K hK (by rw [h4]; exact hK.tp_lt h3) (by rw [h4]; exact hK.tp_al)
  by_cases h : (useAligned e || maybeAnyway e) = true
  · have hpp : prologuePossible e = true := by
      simp only [useAligned, maybeAnyway, Bool.or_eq_true, Bool.and_eq_true] at h
      rcases h with h | h <;> exact h.2
    by_cases hm : misalignedBytes e = 0
    · have hz : proCount e n = 0 := by simp [proCount, hm]
      rw [hz, h0 hz]
      simp [runPrologue, h, hm]
    · by_cases hu : useAligned e = true
      · have hz : proCount e n = toProcess e := by simp [proCount, hm, hu]
        rw [hz] at hp ⊢
        simp only [runPrologue, if_true, hm, if_false, hu, pro hpp hm hz, Outcome.bind_ok, hsub _ hp]
        simp
      · have hu : useAligned e = false := by simpa using hu
        have h : maybeAnyway e = true := by simpa [hu] using h
        by_cases hc : n * e.sz > 4000 ∨ (toProcess e &&& n) = toProcess e
        · have hz : proCount e n = toProcess e := by
            simp only [proCount, h, Bool.false_or, if_true, hm, if_false, hu, Bool.false_eq_true, hc]
          rw [hz] at hp ⊢
          simp only [runPrologue, h, Bool.false_or, if_true, hm, if_false, hu, Bool.false_eq_true, hmul, hc, pro hpp hm hz,
            Outcome.bind_ok, hsub _ hp]
          simp
        · have hz : proCount e n = 0 := by
            simp only [proCount, h, Bool.false_or, if_true, hm, if_false, hu, Bool.false_eq_true, hc]
          rw [hz, h0 hz]
          simp only [runPrologue, h, Bool.false_or, if_true, hm, if_false, hu, Bool.false_eq_true, hmul, hc]
          simp
  · have hz : proCount e n = 0 := by simp only [proCount, h, if_false, Bool.false_eq_true]
    rw [hz, h0 hz]
    simp [runPrologue, h]

/-- With `prefer_aligned` and a misaligned start the prologue is executed unconditionally. -/
theorem runPrologue_short {S : Type} {e : Env} {n : Nat} (hu : useAligned e = true)
    (hm : misalignedBytes e ≠ 0) (doPro : Nat → Nat → S → Outcome S) (st : S) (r : UB)
    (h1 : doPro (maxMisalignment e) (toProcess e) st = .ub r) : runPrologue e n doPro 0 st = .ub r := by
  simp only [runPrologue, hu, Bool.true_or, if_true, hm, if_false, h1, Outcome.bind_ub]

end Vir
