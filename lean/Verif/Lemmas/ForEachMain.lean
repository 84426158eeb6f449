import Verif.Lemmas.ForEach
import Verif.Spec.Platform

namespace Vir
open Spec ForEach

variable {σ α : Type}

/-! ### arithmetic of the prologue -/

theorem prologuePossible_iff (e : Env) : prologuePossible e = true ↔
    1 < e.size ∧ e.al e.size ∣ e.size * e.sz ∧ e.sz < e.al e.size := by
  simp [prologuePossible, Nat.dvd_iff_mod_eq_zero, and_assoc]

/-- Number of elements processed by the prologue of a range of `n` elements. -/
def proCount (e : Env) (n : Nat) : Nat :=
  if (useAligned e || maybeAnyway e) = true then
    if misalignedBytes e = 0 then 0
    else if useAligned e then toProcess e
    else if n * e.sz > 4000 ∨ (toProcess e &&& n) = toProcess e then toProcess e
    else 0
  else 0

/-- Everything about the prologue when it is possible. -/
structure ProInfo (e : Env) (K : Nat) : Prop where
  al : e.al e.size = 2 ^ K * e.sz
  K_pos : 0 < K
  max : maxMisalignment e = 2 ^ K
  tp_lt : misalignedBytes e ≠ 0 → toProcess e < 2 ^ K
  tp_pos : misalignedBytes e ≠ 0 → 0 < toProcess e
  le_size : 2 ^ K ≤ e.size
  tp_al : e.al e.size ∣ e.addr + toProcess e * e.sz
  tp_le : toProcess e ≤ 2 ^ K

theorem proInfo {e : Env} (wf : e.WF) (h : prologuePossible e = true) : ∃ K, ProInfo e K := by
  rw [prologuePossible_iff] at h
  obtain ⟨h1, h2, h3⟩ := h
  obtain ⟨K, hK⟩ := wf.al_pow h3 h2
  have hsz := wf.sz_pos
  have hal := wf.al_pos e.size
  obtain ⟨a, ha⟩ := wf.addr_dvd h3
  have hKpos : 0 < K := by
    rcases Nat.eq_zero_or_pos K with h | h
    · subst h; rw [hK] at h3; simp at h3
    · exact h
  have hmax : maxMisalignment e = 2 ^ K := by
    rw [maxMisalignment, hK, Nat.mul_div_cancel _ hsz]
  have hmis : misalignedBytes e = (a % 2 ^ K) * e.sz := by
    rw [misalignedBytes, hK, ha, Nat.mul_comm e.sz a, Nat.mul_mod_mul_right]
  have htp : toProcess e = 2 ^ K - a % 2 ^ K := by
    rw [toProcess, hmax, hmis, Nat.mul_div_cancel _ hsz]
  have hp := Nat.two_pow_pos K
  have hlt := Nat.mod_lt a hp
  refine ⟨K, hK, hKpos, hmax, ?_, ?_, ?_, ?_, ?_⟩
  · intro h0
    rw [htp]
    have : a % 2 ^ K ≠ 0 := by
      intro h; rw [hmis, h] at h0; simp at h0
    omega
  · intro h0; rw [htp]; omega
  · rw [hK] at h2
    have h2' : 2 ^ K ∣ e.size := Nat.dvd_of_mul_dvd_mul_right hsz h2
    exact Nat.le_of_dvd wf.size_pos h2'
  · rw [hK, ha, htp, Nat.mul_comm e.sz a, ← Nat.add_mul]
    apply Nat.mul_dvd_mul_right
    have h5 := Nat.div_add_mod a (2 ^ K)
    refine ⟨a / 2 ^ K + 1, ?_⟩
    rw [Nat.mul_add, Nat.mul_one]
    omega
  · rw [htp]; omega

theorem and_eq_self_le {a b : Nat} (h : a &&& b = a) : a ≤ b := by
  rw [← h]; exact Nat.and_le_right

/-- The prologue processes nothing unless it is possible. -/
theorem proCount_cases (e : Env) (n : Nat) : proCount e n = 0 ∨
    (prologuePossible e = true ∧ misalignedBytes e ≠ 0 ∧ proCount e n = toProcess e) := by
  unfold proCount
  by_cases h : (useAligned e || maybeAnyway e) = true
  · rw [if_pos h]
    have hp : prologuePossible e = true := by
      simp only [useAligned, maybeAnyway, Bool.or_eq_true, Bool.and_eq_true] at h
      rcases h with h | h <;> exact h.2
    repeat' split
    all_goals simp_all
  · rw [if_neg h]; left; rfl

theorem alignedAt_iff (e : Env) (p w : Nat) (_h : 0 < e.al w) :
    alignedAt e (p : Int) w = true ↔ e.al w ∣ e.addr + p * e.sz := by
  simp only [alignedAt, decide_eq_true_eq]
  rw [Nat.dvd_iff_mod_eq_zero]
  constructor
  · intro h1
    have : (((e.addr + p * e.sz) % e.al w : Nat) : Int) = 0 := by
      rw [← h1]; simp
    exact_mod_cast this
  · intro h1
    have : (((e.addr + p * e.sz) % e.al w : Nat) : Int) = 0 := by rw [h1]; rfl
    simpa using this

/-- Alignment of the prologue accesses. -/
theorem alignedSeq_asc {e : Env} (wf : e.WF) {tp : Nat} (hal : e.al e.size ∣ e.addr + tp * e.sz) (k m : Nat)
    (hle : 2 ^ (k + m) ≤ e.size) (hlt : tp < 2 ^ (k + m)) :
    AlignedSeq e (tp % 2 ^ k) (ascBits tp k m) := by
  induction m generalizing k with
  | zero => trivial
  | succ m ih =>
    simp only [ascBits]
    rw [alignedSeq_append]
    have hk : 2 ^ k ≤ e.size := Nat.le_trans (Nat.pow_le_pow_right (by omega) (by omega)) hle
    constructor
    · by_cases hb : tp.testBit k = true
      · rw [if_pos hb]
        refine ⟨?_, trivial⟩
        rw [alignedAt_iff _ _ _ (wf.al_pos _)]
        have h1 := Nat.dvd_trans (wf.al_mono k hk) hal
        have h2 : e.al (2 ^ k) ∣ (2 ^ k * e.sz) * (tp / 2 ^ k) :=
          Nat.dvd_trans (wf.al_natural k hk) (Nat.dvd_mul_right _ _)
        have h3 : e.addr + tp * e.sz = (e.addr + tp % 2 ^ k * e.sz) + (2 ^ k * e.sz) * (tp / 2 ^ k) := by
          conv => lhs; rw [← Nat.div_add_mod tp (2 ^ k), Nat.add_mul]
          rw [Nat.mul_right_comm]; omega
        rw [h3] at h1
        exact (Nat.dvd_add_left h2).1 h1
      · rw [if_neg hb]; trivial
    · have := ih (k + 1) (by rw [show k + 1 + m = k + (m + 1) by omega]; exact hle)
        (by rw [show k + 1 + m = k + (m + 1) by omega]; exact hlt)
      rw [mod_two_pow_succ'] at this
      by_cases hb : tp.testBit k = true
      · simpa [hb] using this
      · simpa [hb] using this

/-- Alignment of the epilogue accesses. -/
theorem alignedSeq_desc {e : Env} (wf : e.WF) {l k p : Nat} (hle : ∀ j, j < k → l.testBit j = true → 2 ^ j ≤ e.size)
    (hal : e.al e.size ∣ e.addr + p * e.sz) (q : Nat) (hq : 2 ^ k ∣ q) :
    AlignedSeq e (p + q) (descBits l k) := by
  induction k generalizing q with
  | zero => trivial
  | succ k ih =>
    simp only [descBits]
    rw [alignedSeq_append]
    have hqk : 2 ^ k ∣ q := Nat.dvd_trans (Nat.pow_dvd_pow 2 (by omega)) hq
    by_cases hb : l.testBit k = true
    · have hk := hle k (by omega) hb
      rw [if_pos hb]
      refine ⟨⟨?_, trivial⟩, ?_⟩
      · rw [alignedAt_iff _ _ _ (wf.al_pos _)]
        obtain ⟨c, hc⟩ := hqk
        rw [Nat.add_mul, ← Nat.add_assoc]
        apply Nat.dvd_add (Nat.dvd_trans (wf.al_mono k hk) hal)
        rw [hc, Nat.mul_right_comm]
        exact Nat.dvd_trans (wf.al_natural k hk) (Nat.dvd_mul_right _ _)
      · have := ih (fun j hj hb => hle j (by omega) hb) (q + 2 ^ k) (Nat.dvd_add hqk (Nat.dvd_refl _))
        simpa [Nat.add_assoc] using this
    · rw [if_neg hb]
      refine ⟨trivial, ?_⟩
      simpa using ih (fun j hj hb => hle j (by omega) hb) q hqk

/-! ### the sequence of invocations -/

/-- Unroll factor as a number of simd arguments. -/
def unroll (e : Env) : Nat := e.pol.unrollBy.toNat

/-- Number of iterations of the unrolled loop on `m` remaining elements. -/
def unrolledIters (e : Env) (m : Nat) : Nat :=
  if e.pol.unrollBy > 1 then m / (e.size * unroll e) else 0

/-- The invocations `for_each` performs on a range of `n` elements. -/
def callsOf (e : Env) (n : Nat) : List Call :=
  if n = 0 then [] else
  let p := proCount e n
  let m := n - p
  let q1 := unrolledIters e m
  singles (bitsAsc p) ++ (List.replicate q1 ⟨e.size, unroll e⟩ ++
    (List.replicate ((m - q1 * (e.size * unroll e)) / e.size) ⟨e.size, 1⟩ ++ singles (bitsDesc (m % e.size))))

/-- The prologue phase. -/
theorem runPrologue_eq {e : Env} (wf : e.WF) {n : Nat} (hf : e.Fits n) (hp : proCount e n ≤ n) (wb : Bool)
    (f : Callable σ α) (s : σ) (xs : List α) (hx : xs.length = n) :
    runPrologue e n (fun max tp st => prologueRec e wb f max tp 0 0 st) 0 (s, xs) =
      .ok (((proCount e n : Nat) : Int), n - proCount e n,
        run f wb (singles (bitsAsc (proCount e n))) s xs) := by
  have hsz := wf.sz_pos
  have hn : n < 2 ^ 64 := by
    have : n * 1 ≤ n * e.sz := Nat.mul_le_mul_left n hsz
    unfold Env.Fits at hf; omega
  have hmul : (n * e.sz) % sizeT = n * e.sz := Nat.mod_eq_of_lt hf
  have hsub : ∀ t, t ≤ n → (n + sizeT - t) % sizeT = n - t := by
    intro t ht
    rw [show n + sizeT - t = (n - t) + sizeT by omega, Nat.add_mod_right, Nat.mod_eq_of_lt]
    unfold sizeT; omega
  have run0 : run f wb (singles (bitsAsc 0)) s xs = (s, xs) := by simp [run]
  have pro : prologuePossible e = true → misalignedBytes e ≠ 0 → toProcess e ≤ n →
      prologueRec e wb f (maxMisalignment e) (toProcess e) 0 0 (s, xs) =
        .ok (run f wb (singles (bitsAsc (toProcess e))) s xs) := by
    intro h1 h2 h3
    obtain ⟨K, hK⟩ := proInfo wf h1
    rw [hK.max]
    have ht := hK.tp_lt h2
    have hpos := hK.tp_pos h2
    have ha := alignedSeq_asc wf hK.tp_al 0 K (by simpa using hK.le_size) (by simpa using ht)
    rw [bitsAsc_eq _ _ ht] at ha
    have := does_prologueRec e wb f K (toProcess e) n hK.K_pos (by omega) ht
      (by simpa [Nat.mod_one] using ha) h3 s [] xs rfl (by simpa using hx)
    simpa using this
  unfold runPrologue
  unfold proCount at hp ⊢
  by_cases h : (useAligned e || maybeAnyway e) = true
  · have hpp : prologuePossible e = true := by
      simp only [useAligned, maybeAnyway, Bool.or_eq_true, Bool.and_eq_true] at h
      rcases h with h | h <;> exact h.2
    simp only [h, if_true] at hp ⊢
    by_cases hm : misalignedBytes e = 0
    · simp only [hm, if_true, run0]; simp
    · simp only [hm, if_false] at hp ⊢
      by_cases hu : useAligned e = true
      · simp only [hu, if_true] at hp ⊢
        simp only [pro hpp hm hp, Outcome.bind_ok, hsub _ hp]
        simp
      · simp only [hu, Bool.false_eq_true, if_false] at hp ⊢
        rw [hmul]
        by_cases hc : n * e.sz > 4000 ∨ (toProcess e &&& n) = toProcess e
        · simp only [hc, if_true] at hp ⊢
          simp only [pro hpp hm hp, Outcome.bind_ok, hsub _ hp]
          simp
        · simp only [hc, if_false, run0]; simp
  · simp only [h, Bool.false_eq_true, if_false, run0]; simp

/-- `run` only depends on the prefix it consumes. -/
theorem run_split (f : Callable σ α) (wb : Bool) (cs : List Call) (s : σ) (xs : List α)
    (h : elems cs ≤ xs.length) :
    ∃ o, o.length = elems cs ∧ (run f wb cs s xs).2 = o ++ xs.drop (elems cs) ∧
      ∀ cs', run f wb (cs ++ cs') s xs =
        ((run f wb cs' (run f wb cs s xs).1 (xs.drop (elems cs))).1,
          o ++ (run f wb cs' (run f wb cs s xs).1 (xs.drop (elems cs))).2) := by
  have h0 := run_append f wb cs [] s xs h
  simp only [List.append_nil, run] at h0
  refine ⟨(run f wb cs s (xs.take (elems cs))).2, ?_, ?_, ?_⟩
  · rw [run_length _ _ _ _ _ (by rw [List.length_take]; omega), List.length_take]; omega
  · rw [h0]
  · intro cs'
    rw [run_append f wb cs cs' s xs h, h0]

theorem alignedSeq_replicate {e : Env} (wf : e.WF) (hd : e.al e.size ∣ e.size * e.sz) (p : Nat)
    (hal : e.al e.size ∣ e.addr + p * e.sz) (k : Nat) : AlignedSeq e p (List.replicate k e.size) := by
  induction k generalizing p with
  | zero => trivial
  | succ k ih =>
    refine ⟨(alignedAt_iff _ _ _ (wf.al_pos _)).2 hal, ih (p + e.size) ?_⟩
    rw [Nat.add_mul, ← Nat.add_assoc]
    exact Nat.dvd_add hal hd

theorem dvd_shift {e : Env} (hd : e.al e.size ∣ e.size * e.sz) {p : Nat}
    (hal : e.al e.size ∣ e.addr + p * e.sz) (i : Nat) : e.al e.size ∣ e.addr + (p + i * e.size) * e.sz := by
  rw [Nat.add_mul, ← Nat.add_assoc]
  apply Nat.dvd_add hal
  rw [Nat.mul_assoc]
  exact Nat.dvd_trans hd (Nat.dvd_mul_left _ _)

/-- After the prologue the position is aligned if aligned accesses are used from there on. -/
theorem proCount_aligned {e : Env} (wf : e.WF) (n : Nat) (hu : useAligned e = true) :
    e.al e.size ∣ e.size * e.sz ∧ e.al e.size ∣ e.addr + proCount e n * e.sz := by
  have hpp : prologuePossible e = true := by
    simp only [useAligned, Bool.and_eq_true] at hu; exact hu.2
  refine ⟨((prologuePossible_iff e).1 hpp).2.1, ?_⟩
  obtain ⟨K, hK⟩ := proInfo wf hpp
  unfold proCount
  simp only [hu, Bool.true_or, if_true]
  by_cases hm : misalignedBytes e = 0
  · rw [if_pos hm]
    unfold misalignedBytes at hm
    simpa using Nat.dvd_of_mod_eq_zero hm
  · rw [if_neg hm]; exact hK.tp_al

/-- With `assume_matching_size` there is no prologue. -/
theorem proCount_assume {e : Env} (wf : e.WF) (n : Nat) (ha : e.pol.assumeMatchingSize = true) :
    proCount e n = 0 := by
  have hi := wf.pol_reachable.inv
  have h1 : e.pol.prefersAligned = false := by
    cases h : e.pol.prefersAligned
    · rfl
    · have := (hi.pa h).2; rw [ha] at this; simp at this
  have h2 : e.pol.autoPrologue = false := by
    cases h : e.pol.autoPrologue
    · rfl
    · have := hi.ap h; rw [ha] at this; simp at this
  simp [proCount, useAligned, maybeAnyway, h1, h2]

/-- **Main refinement theorem** for the run-time branch of `for_each`. -/
theorem forEach_eq_run {e : Env} (wf : e.WF) (hce : e.constEval = false) {n : Nat} (hf : e.Fits n)
    (hp : n = 0 ∨ proCount e n ≤ n)
    (hst : e.strictPtr = true → n = 0 ∨ (e.size ≤ n ∧ (1 < e.pol.unrollBy → e.size * unroll e ≤ n)))
    (has : e.pol.assumeMatchingSize = true → e.size ∣ n) (wb : Bool) (f : Callable σ α) (s : σ)
    (xs : List α) (hx : xs.length = n) :
    forEach e wb f s xs = .ok (run f wb (callsOf e n) s xs) := by
  subst hx
  unfold forEach
  by_cases hn0 : xs.length = 0
  · simp [hn0, callsOf, run]
  have hp : proCount e xs.length ≤ xs.length := by omega
  have hst : e.strictPtr = true → (e.size ≤ xs.length ∧ (1 < e.pol.unrollBy → e.size * unroll e ≤ xs.length)) := by
    intro h; rcases hst h with h | h
    · exact absurd h hn0
    · exact h
  have hassume : (e.pol.assumeMatchingSize && xs.length % e.size != 0) = false := by
    cases ha : e.pol.assumeMatchingSize
    · rfl
    · simp [Nat.mod_eq_zero_of_dvd (has ha)]
  simp only [hn0, if_false, hassume, Bool.false_eq_true, hce]
  rw [runPrologue_eq wf hf hp wb f s xs rfl]
  simp only [Outcome.bind_ok]
  have hsize := wf.size_pos
  have hinv := wf.pol_reachable.inv
  generalize hP : proCount e xs.length = p at hp ⊢
  have hpal : useAligned e = true → e.al e.size ∣ e.size * e.sz ∧ e.al e.size ∣ e.addr + p * e.sz := by
    intro h; have := proCount_aligned wf xs.length h; rwa [hP] at this
  have hpas : e.pol.assumeMatchingSize = true → p = 0 := fun h => hP ▸ proCount_assume wf xs.length h
  -- phase 1
  have el1 : elems (singles (bitsAsc p)) = p := by simp [bitsAsc_sum]
  obtain ⟨o1, ho1, hr1, hc1⟩ := run_split f wb (singles (bitsAsc p)) s xs (by omega)
  rw [el1] at ho1 hr1 hc1
  generalize hS1 : run f wb (singles (bitsAsc p)) s xs = R1 at hr1 hc1 ⊢
  obtain ⟨s1, m1⟩ := R1
  simp only at hr1 hc1
  subst hr1
  -- phase 2: unrolled loop
  generalize hn : xs.length = n at *
  have hrest : (xs.drop p).length = n - p := by rw [List.length_drop, hn]
  generalize hrst : xs.drop p = rest1 at *
  have ph2 : unrolledLoop e wb f n (p : Int) (s1, o1 ++ rest1) =
      .ok (((p + unrolledIters e (n - p) * (e.size * unroll e) : Nat) : Int),
        ((run f wb (List.replicate (unrolledIters e (n - p)) ⟨e.size, unroll e⟩) s1 rest1).1,
          o1 ++ (run f wb (List.replicate (unrolledIters e (n - p)) ⟨e.size, unroll e⟩) s1 rest1).2)) := by
    unfold unrolledLoop
    by_cases hu : e.pol.unrollBy > 1
    · simp only [hu, if_true]
      have hU : 1 < unroll e := by unfold unroll; omega
      have hstep : 0 < e.size * unroll e := Nat.mul_pos hsize (by omega)
      have hsp : subPtr e (n : Int) (e.size * e.pol.unrollBy.toNat) = .ok ((n : Int) - (e.size * unroll e : Nat)) := by
        unfold subPtr
        rw [if_neg]
        · rfl
        · simp only [Bool.and_eq_true, decide_eq_true_eq, not_and]
          intro hs
          have := (hst hs).2 hu
          unfold unroll at this
          omega
      rw [hsp]
      simp only [Outcome.bind_ok, unrolledIters, hu, if_true]
      generalize hq : (n - p) / (e.size * unroll e) = q
      have hq1 : q * (e.size * unroll e) ≤ n - p := by rw [← hq]; exact Nat.div_mul_le_self _ _
      have hq2 : n - p < (q + 1) * (e.size * unroll e) := by
        rw [← hq, Nat.mul_comm]; exact Nat.lt_mul_div_succ _ hstep
      rw [Nat.succ_mul] at hq2
      have hqn : q ≤ n := by
        have : q * 1 ≤ q * (e.size * unroll e) := Nat.mul_le_mul_left q hstep
        omega
      have hmono : ∀ i, i < q → (i + 1) * (e.size * unroll e) ≤ q * (e.size * unroll e) := fun i hi =>
        Nat.mul_le_mul_right _ hi
      refine whileLoop_does f wb n ⟨e.size, unroll e⟩
        (fun first => decide (first ≤ (n : Int) - (e.size * unroll e : Nat)))
        (fun first => loadAndInvoke e wb f e.size (useAligned e) (unroll e) first)
        (n + 1) p q ?_ ?_ ?_ ?_ ?_ s1 o1 rest1 ho1 ?_
      · intro i hi
        simp only [Call.elems]
        have := hmono i hi
        rw [Nat.succ_mul] at this
        refine does_loadAndInvoke e wb f e.size (useAligned e) (unroll e) n _ (fun h => ?_) (by omega)
        obtain ⟨hd, ha⟩ := hpal h
        have := dvd_shift hd ha (i * unroll e)
        rw [show p + i * unroll e * e.size = p + i * (e.size * unroll e) by
          rw [Nat.mul_assoc, Nat.mul_comm (unroll e)]] at this
        exact alignedSeq_replicate wf hd _ this _
      · intro i hi
        have := hmono i hi
        rw [Nat.succ_mul] at this
        refine decide_eq_true ?_
        simp only [Call.elems]
        omega
      · refine decide_eq_false ?_
        simp only [Call.elems]
        omega
      · simp only [Call.elems]; omega
      · omega
      · omega
    · simp [hu, unrolledIters, run]
  simp only [ph2, Outcome.bind_ok]
  have hq1le : unrolledIters e (n - p) * (e.size * unroll e) ≤ n - p := by
    unfold unrolledIters
    split
    · exact Nat.div_mul_le_self _ _
    · simp
  generalize hQ1 : unrolledIters e (n - p) = q1 at hq1le ⊢
  generalize hstp : e.size * unroll e = step at *
  have el2 : elems (List.replicate q1 (⟨e.size, unroll e⟩ : Call)) = q1 * step := by
    simp [Call.elems, hstp]
  obtain ⟨o2, ho2, hr2, hc2⟩ := run_split f wb (List.replicate q1 ⟨e.size, unroll e⟩) s1 rest1 (by omega)
  rw [el2] at ho2 hr2 hc2
  generalize hS2 : run f wb (List.replicate q1 ⟨e.size, unroll e⟩) s1 rest1 = R2 at hr2 hc2 ⊢
  obtain ⟨s2, m2⟩ := R2
  simp only at hr2 hc2
  subst hr2
  have hrest2 : (rest1.drop (q1 * step)).length = n - p - q1 * step := by rw [List.length_drop, hrest]
  generalize hrst2 : rest1.drop (q1 * step) = rest2 at hrest2 hc2 ⊢
  -- phase 3: main loop
  have hsl : subPtr e (n : Int) e.size = .ok ((n : Int) - (e.size : Nat)) := by
    unfold subPtr
    rw [if_neg]
    simp only [Bool.and_eq_true, decide_eq_true_eq, not_and]
    intro hs
    have := (hst hs).1
    omega
  rw [hsl]
  simp only [Outcome.bind_ok]
  have hstepd : e.size ∣ q1 * step := by
    rw [← hstp]; exact Nat.dvd_trans (Nat.dvd_mul_right _ _) (Nat.dvd_mul_left _ _)
  generalize hq2 : (n - p - q1 * step) / e.size = q2
  have hq2le : q2 * e.size ≤ n - p - q1 * step := by rw [← hq2]; exact Nat.div_mul_le_self _ _
  have hq2lt : n - p - q1 * step < q2 * e.size + e.size := by
    have := Nat.lt_mul_div_succ (n - p - q1 * step) hsize
    rw [hq2, Nat.mul_succ, Nat.mul_comm e.size] at this; exact this
  have hleft : (n - p) % e.size = n - p - q1 * step - q2 * e.size := by
    obtain ⟨c, hc⟩ := hstepd
    have h1 := Nat.div_add_mod (n - p - q1 * step) e.size
    rw [hq2, Nat.mul_comm] at h1
    have h2 : (n - p) % e.size = (n - p - q1 * step) % e.size := by
      conv => lhs; rw [show n - p = (n - p - q1 * step) + e.size * c by omega]
      exact Nat.add_mul_mod_self_left _ _ _
    rw [h2]; omega
  have hq2n : q2 ≤ n := by
    have : q2 * 1 ≤ q2 * e.size := Nat.mul_le_mul_left q2 hsize
    omega
  have posAl : useAligned e = true → ∀ i, e.al e.size ∣ e.addr + (p + q1 * step + i * e.size) * e.sz := by
    intro h i
    obtain ⟨hd, ha⟩ := hpal h
    obtain ⟨c, hc⟩ := hstepd
    have := dvd_shift hd (dvd_shift hd ha c) i
    rwa [show p + c * e.size = p + q1 * step by rw [hc, Nat.mul_comm]] at this
  have ph3 := whileLoop_does f wb n ⟨e.size, 1⟩
    (fun first => if e.pol.assumeMatchingSize then decide (first ≠ (n : Int))
      else decide (first ≤ (n : Int) - (e.size : Nat)))
    (fun first => loadAndInvoke e wb f e.size (useAligned e) 1 first) (n + 1) (p + q1 * step) q2
    (by
      intro i hi
      simp only [Call.elems, Nat.mul_one]
      have hm := Nat.mul_le_mul_right e.size (show i + 1 ≤ q2 from hi)
      rw [Nat.succ_mul] at hm
      refine does_loadAndInvoke e wb f e.size (useAligned e) 1 n _ (fun h => ?_) (by omega)
      exact ⟨(alignedAt_iff _ _ _ (wf.al_pos _)).2 (posAl h i), trivial⟩)
    (by
      intro i hi
      simp only [Call.elems, Nat.mul_one]
      have hm := Nat.mul_le_mul_right e.size (show i + 1 ≤ q2 from hi)
      rw [Nat.succ_mul] at hm
      split
      · simp only [decide_eq_true_eq]; omega
      · simp only [decide_eq_true_eq]; omega)
    (by
      simp only [Call.elems, Nat.mul_one]
      split
      · rename_i ha
        have h0 := hpas ha
        have hd := has ha
        have hz : (n - p) % e.size = 0 := by rw [h0]; exact Nat.mod_eq_zero_of_dvd hd
        simp only [decide_eq_false_iff_not, ne_eq, Decidable.not_not]
        omega
      · simp only [decide_eq_false_iff_not]; omega)
    (by simp only [Call.elems, Nat.mul_one]; omega) (by omega) s2 (o1 ++ o2) rest2
    (by rw [List.length_append, ho1, ho2]) (by omega)
  have hel1 : Call.elems ⟨e.size, 1⟩ = e.size := by simp [Call.elems]
  rw [hel1] at ph3
  simp only [← List.append_assoc]
  rw [ph3]
  simp only [Outcome.bind_ok]
  have el3 : elems (List.replicate q2 (⟨e.size, 1⟩ : Call)) = q2 * e.size := by
    simp [Call.elems]
  obtain ⟨o3, ho3, hr3, hc3⟩ := run_split f wb (List.replicate q2 ⟨e.size, 1⟩) s2 rest2 (by omega)
  rw [el3] at ho3 hr3 hc3
  generalize hS3 : run f wb (List.replicate q2 ⟨e.size, 1⟩) s2 rest2 = R3 at hr3 hc3 ⊢
  obtain ⟨s3, m3⟩ := R3
  simp only at hr3 hc3
  subst hr3
  have hrest3 : (rest2.drop (q2 * e.size)).length = (n - p) % e.size := by
    rw [List.length_drop, hrest2, hleft]
  generalize hrst3 : rest2.drop (q2 * e.size) = rest3 at hrest3 hc3 ⊢
  -- right-hand side
  have hrhs : run f wb (callsOf e n) s xs =
      ((run f wb (singles (bitsDesc ((n - p) % e.size))) s3 rest3).1,
        o1 ++ o2 ++ o3 ++ (run f wb (singles (bitsDesc ((n - p) % e.size))) s3 rest3).2) := by
    unfold callsOf
    rw [if_neg hn0, hP]
    simp only [hQ1, hstp, hq2]
    rw [hc1, hc2, hc3]
    simp
  rw [hrhs]
  -- phase 4: epilogue
  simp only
  by_cases hl0 : (n - p) % e.size = 0
  · simp [hl0, run]
  · have hlt := Nat.mod_lt (n - p) hsize
    have hs1 : e.size > 1 := by
      rcases Nat.lt_or_ge 1 e.size with h | h
      · exact h
      · exfalso; apply hl0; rw [show e.size = 1 by omega]; exact Nat.mod_one _
    have hna : e.pol.assumeMatchingSize = false := by
      cases ha : e.pol.assumeMatchingSize
      · rfl
      · exfalso; apply hl0
        rw [hpas ha]; exact Nat.mod_eq_zero_of_dvd (has ha)
    simp only [hna, hs1, decide_true, Bool.and_self, Bool.not_false, if_true, ne_eq, hl0, not_false_eq_true]
    obtain ⟨K, hK, hK1, hK2⟩ := stdBitCeil_spec hs1
    have hNl : n - (n - p) % e.size = p + q1 * step + q2 * e.size := by rw [hleft]; omega
    have := does_epilogue e wb f K e.size ((n - p) % e.size) n (useAligned e) hK1 hK2 hlt (Or.inl hl0)
      (by omega) (fun h => by
        rw [hNl, ← bitsDesc_eq _ (K + 1) (by omega)]
        have := alignedSeq_desc wf (l := (n - p) % e.size) (k := K + 1) (fun j hj hb => by
          have : 2 ^ j ≤ 2 ^ K := Nat.pow_le_pow_right (by omega) (by omega)
          omega) (posAl h q2) 0 (Nat.dvd_zero _)
        simpa using this)
      s3 (o1 ++ o2 ++ o3) rest3
      (by rw [hNl]; simp only [List.length_append, ho1, ho2, ho3]) (by omega)
    simp only [List.append_assoc] at this ⊢
    rw [this]

end Vir
