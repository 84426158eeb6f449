import Verif.Lemmas.ForEachGen
import Verif.Lemmas.TransformGen

/-!
# `for_each` processes a known sequence of groups
-/

namespace Vir
open Spec ForEach Transform

variable {S : Type}

namespace ForEach

/-- The invocation at a position of the range. -/
def atPos (inv : Inv S) (g : Group) (p : Nat) : S → Outcome S := inv g.w g.aligned g.k (p : Int)

theorem jumpFromG_trace (inv : Inv S) (table : List (Nat × Nat)) (bound : Nat) (aligned : Bool) (fuel n p : Nat) (ws : List Nat)
    (hws : tableWidths table fuel n = some ws) (hb : n < bound) (st : S) :
    jumpFromG inv table bound aligned fuel n (p : Int) st = runGroups (atPos inv) p (chunked aligned ws) st := by
  induction fuel generalizing n p ws st with
  | zero => simp [tableWidths] at hws
  | succ fuel ih =>
    simp only [tableWidths] at hws
    unfold jumpFromG
    by_cases hn : n = 0
    · simp only [hn, if_true, Option.some.injEq] at hws
      subst hws
      simp [hn, runGroups]
    · simp only [hn, if_false] at hws ⊢
      cases hl : table.lookup n with
      | none => simp [hl] at hws
      | some m =>
        simp only [hl] at hws ⊢
        by_cases hm : m < n
        · simp only [hm, if_true, Option.map_eq_some_iff] at hws
          obtain ⟨ws', hws', rfl⟩ := hws
          rw [if_neg (by omega)]
          simp only [chunked_cons, runGroups, atPos]
          congr 1; funext s
          have := ih m (p + (n - m)) ws' hws' (by omega) s
          rw [Int.natCast_add] at this
          simpa [Group.elems] using this
        · simp [hm] at hws

theorem jumpTableG_trace (inv : Inv S) (table : List (Nat × Nat)) (bound : Nat) (aligned : Bool) (n p : Nat) (ws : List Nat)
    (hws : tableWidths table (n + 1) n = some ws) (h0 : n ≠ 0) (hb : n < bound) (st : S) :
    jumpTableG inv table bound aligned n (p : Int) st = runGroups (atPos inv) p (chunked aligned ws) st := by
  have : ∃ m, table.lookup n = some m := by
    simp only [tableWidths, h0, if_false] at hws
    cases hl : table.lookup n with
    | none => simp [hl] at hws
    | some m => exact ⟨m, rfl⟩
  obtain ⟨m, hm⟩ := this
  simp only [jumpTableG, hm]
  exact jumpFromG_trace inv table bound aligned _ n p ws hws hb st

theorem prologueRecG_trace_aux (e : Env) (inv : Inv S) (K tp k m p : Nat) (hK : 1 < K) (h0 : tp ≠ 0) (ht : tp < 2 ^ K) (hk : k + m = K)
    (hm : 0 < m) (hkk : 0 < k ∨ (!e.optSize && decide (2 ^ k = 1 ∧ 2 ^ K < 64) && !e.constEval) = false) (st : S) :
    prologueRecG e inv (2 ^ K) tp k (p : Int) st = runGroups (atPos inv) p (chunked true (ascBits tp k m)) st := by
  induction m generalizing k p st with
  | zero => omega
  | succ m ih =>
    have hmax : (2 : Nat) ^ 1 < 2 ^ K := Nat.pow_lt_pow_right (by omega) hK
    have hjt : (!e.optSize && decide (2 ^ k = 1 ∧ 2 ^ K < 64) && !e.constEval) = false := by
      rcases hkk with h | h
      · have : (2 : Nat) ^ 0 < 2 ^ k := Nat.pow_lt_pow_right (by omega) h
        have : decide (2 ^ k = 1 ∧ 2 ^ K < 64) = false := by
          rw [decide_eq_false_iff_not]; omega
        rw [this]; simp
      · exact h
    unfold prologueRecG
    rw [if_neg (by simp [hasSingleBit_two_pow]; omega), if_neg (by omega), if_neg (by omega), hjt]
    simp only [Bool.false_eq_true, if_false]
    have cont : ∀ (p : Nat) st,
        (if _h : 2 ^ k * 2 < 2 ^ K then prologueRecG e inv (2 ^ K) tp (k + 1) (p : Int) st else Outcome.ok st) =
          runGroups (atPos inv) p (chunked true (ascBits tp (k + 1) m)) st := by
      intro p st
      by_cases hmz : m = 0
      · subst hmz
        have hkK : k + 1 = K := by omega
        rw [dif_neg (by rw [← Nat.pow_succ, show k.succ = K from hkK]; omega)]
        simp [ascBits, runGroups]
      · have h2 : 2 ^ (k + 1) < 2 ^ K := Nat.pow_lt_pow_right (by omega) (by omega)
        rw [dif_pos (by rw [Nat.pow_succ] at h2; exact h2)]
        exact ih (k + 1) p (by omega) (by omega) (Or.inl (by omega)) st
    simp only [ascBits]
    by_cases hb : tp.testBit k = true
    · have hne : (2 ^ k &&& tp) ≠ 0 := (two_pow_and_ne_zero k tp).2 hb
      rw [if_pos hne]
      simp only [hb, if_true, List.cons_append, List.nil_append, chunked_cons, runGroups, atPos, Outcome.bind_ok]
      congr 1; funext s
      rw [← Int.natCast_add, cont]
      simp [Group.elems]
    · have hne : ¬ (2 ^ k &&& tp) ≠ 0 := fun h => hb ((two_pow_and_ne_zero k tp).1 h)
      rw [if_neg hne]
      simp only [hb, if_false, Bool.false_eq_true, List.nil_append, Outcome.bind_ok]
      exact cont p st

theorem prologueRecG_trace (e : Env) (inv : Inv S) (K tp : Nat) (hK : 0 < K) (h0 : tp ≠ 0) (ht : tp < 2 ^ K) (st : S) :
    prologueRecG e inv (2 ^ K) tp 0 0 st = runGroups (atPos inv) 0 (chunked true (bitsAsc tp)) st := by
  by_cases hK1 : K = 1
  · subst hK1
    obtain rfl : tp = 1 := by simp at ht; omega
    have hb : bitsAsc 1 = [1] := by decide
    rw [hb]
    unfold prologueRecG
    rw [if_neg (by decide), if_neg (by decide), if_pos (by decide)]
    simp only [chunked_cons, chunked_nil, runGroups, atPos]
    show inv 1 true 1 0 st = (inv 1 true 1 0 st >>= fun st => Outcome.ok st)
    cases inv 1 true 1 0 st <;> rfl
  · by_cases hj : (!e.optSize && decide (2 ^ 0 = 1 ∧ 2 ^ K < 64) && !e.constEval) = true
    · have hmax : (2 : Nat) ^ 1 < 2 ^ K := Nat.pow_lt_pow_right (by omega) (by omega)
      unfold prologueRecG
      rw [if_neg (by simp [hasSingleBit_two_pow]; omega), if_neg (by omega), if_neg (by omega), hj]
      simp only [if_true]
      have h64 : 2 ^ K < 2 ^ 6 := by simp at hj; omega
      have hK6 : K < 6 := (Nat.pow_lt_pow_iff_right (by omega)).1 h64
      have h32 : tp < 32 := Nat.lt_of_lt_of_le ht (show 2 ^ K ≤ 2 ^ 5 from Nat.pow_le_pow_right (by omega) (by omega))
      exact jumpTableG_trace inv prologueTable (2 ^ K) true tp 0 _ (prologueTable_asc' h32) h0 ht st
    · have := prologueRecG_trace_aux e inv K tp 0 K 0 (by omega) h0 ht (by omega) hK (Or.inr (by simpa using hj)) st
      rw [bitsAsc_eq _ _ ht] at this
      exact this

theorem epilogueG_trace (e : Env) (inv : Inv S) (n K v0 l : Nat) (aligned : Bool) (h1 : 2 ^ K < v0) (h2 : v0 ≤ 2 ^ (K + 1)) (hl : l < v0)
    (h0 : l ≠ 0 ∨ (e.constEval = true ∧ v0 ≠ 2)) (hlN : l ≤ n) (st : S) :
    epilogueG e inv v0 l (n : Int) aligned st = runGroups (atPos inv) (n - l) (chunked aligned (bitsDesc l)) st := by
  induction K generalizing v0 l st with
  | zero =>
    obtain rfl : v0 = 2 := by simp at h1 h2; omega
    obtain rfl : l = 1 := by rcases h0 with h | h; omega; simp at h
    unfold epilogueG
    have hb : bitsDesc 1 = [1] := by decide
    rw [hb, dif_neg (by omega), if_pos rfl]
    have : (n : Int) - 1 = ((n - 1 : Nat) : Int) := by omega
    simp only [chunked_cons, chunked_nil, runGroups, atPos, this]
    cases inv 1 aligned 1 _ st <;> rfl
  | succ K ih =>
    have hp := Nat.two_pow_pos K
    have hv : 2 < v0 := by rw [Nat.pow_succ] at h1; omega
    have hcast : (n : Int) - (l : Int) = ((n - l : Nat) : Int) := by omega
    unfold epilogueG
    rw [dif_neg (by omega), if_neg (by omega)]
    have tab : v0 ≤ 64 → e.constEval = false → jumpTableG inv epilogueTable v0 aligned l ((n : Int) - (l : Int)) st =
        runGroups (atPos inv) (n - l) (chunked aligned (bitsDesc l)) st := by
      intro h64 hc
      rw [hcast]
      exact jumpTableG_trace inv epilogueTable v0 aligned l (n - l) _ (epilogueTable_desc' (by omega))
        (by rcases h0 with h | h; exact h; rw [hc] at h; simp at h) hl st
    by_cases hj1 : (decide (v0 ≤ 4) && !e.constEval) = true
    · rw [if_pos hj1]
      simp at hj1
      exact tab (by omega) hj1.2
    rw [if_neg hj1]
    by_cases hj2 : (!e.optSize && decide (v0 ≤ 64) && !e.constEval) = true
    · rw [if_pos hj2]
      simp at hj2
      exact tab hj2.1.2 hj2.2
    rw [if_neg hj2]
    have hw : stdBitCeil v0 / 2 = 2 ^ (K + 1) := by
      rw [stdBitCeil_unique h1 h2, Nat.pow_succ]; omega
    simp only [hw, hcast]
    have hw1 : 2 ^ (K + 1) > 1 := by rw [Nat.pow_succ]; omega
    simp only [hw1, if_true]
    have hlt : l < 2 ^ (K + 2) := Nat.lt_of_lt_of_le hl h2
    have hbits : bitsDesc l = (if l.testBit (K + 1) then [2 ^ (K + 1)] else []) ++ descBits l (K + 1) := by
      rw [← bitsDesc_eq l (K + 2) hlt]; rfl
    by_cases hb : l.testBit (K + 1) = true
    · have hge : 2 ^ (K + 1) ≤ l := Nat.ge_two_pow_of_testBit hb
      rw [if_pos ((and_two_pow_ne_zero _ _).2 hb)]
      have hsub : l - 2 ^ (K + 1) < 2 ^ (K + 1) := by rw [Nat.pow_succ] at hlt; omega
      have hrest : descBits l (K + 1) = bitsDesc (l - 2 ^ (K + 1)) := descBits_sub_top hb hlt
      simp only [hb, if_true, hrest] at hbits
      rw [hbits]
      have hpos : n - l + 2 ^ (K + 1) = n - (l - 2 ^ (K + 1)) := by omega
      simp only [List.cons_append, List.nil_append, chunked_cons, runGroups, atPos, Outcome.bind_ok]
      congr 1; funext s
      simp only [Group.elems, Nat.mul_one, hpos]
      by_cases hz : l - 2 ^ (K + 1) = 0
      · simp [hz, runGroups]
      · rw [if_pos hz]
        exact ih (2 ^ (K + 1)) (l - 2 ^ (K + 1)) (by rw [Nat.pow_succ]; omega) (Nat.le_refl _) hsub (Or.inl hz) (by omega) s
    · rw [if_neg (fun h => hb ((and_two_pow_ne_zero _ _).1 h))]
      simp only [Outcome.bind_ok]
      have hlt' : l < 2 ^ (K + 1) := lt_of_testBit_false (by simpa using hb) hlt
      by_cases hz : l = 0
      · simp [hz, runGroups]
      rw [if_pos hz]
      exact ih (2 ^ (K + 1)) l (by rw [Nat.pow_succ]; omega) (Nat.le_refl _) hlt' (Or.inl hz) hlN st

theorem whileLoop_inv (inv : Inv S) (cond : Int → Bool) (aligned : Bool) (w k fuel p q : Nat) (st : S)
    (hcond : ∀ i, i < q → cond ((p + i * (w * k) : Nat) : Int) = true)
    (hend : cond ((p + q * (w * k) : Nat) : Int) = false) (hf : q < fuel) :
    whileLoop cond (w * k) (fun first => inv w aligned k first) fuel (p : Int) st =
      (runGroups (atPos inv) p (List.replicate q ⟨w, aligned, k⟩) st >>= fun s => .ok (((p + q * (w * k) : Nat) : Int), s)) := by
  induction q generalizing p fuel st with
  | zero =>
    cases fuel with
    | zero => omega
    | succ fuel =>
      simp only [Nat.zero_mul, Nat.add_zero] at hend ⊢
      simp [whileLoop, hend, runGroups]
  | succ q ih =>
    cases fuel with
    | zero => omega
    | succ fuel =>
      have hc := hcond 0 (by omega)
      simp only [Nat.zero_mul, Nat.add_zero] at hc
      simp only [whileLoop, hc, if_true, List.replicate_succ, runGroups, atPos, Outcome.bind_assoc]
      congr 1; funext s
      have key : ∀ i, p + w * k + i * (w * k) = p + (i + 1) * (w * k) := by
        intro i; rw [Nat.succ_mul]; omega
      have := ih fuel (p + w * k) s (fun i hi => by rw [key]; exact hcond (i + 1) (by omega)) (by rw [key]; exact hend) (by omega)
      rw [Int.natCast_add, key] at this
      exact this

/-- **Main theorem**: whatever an invocation does, `for_each` invokes on the groups `groupsOf`, in order. -/
theorem forEachG_trace {e : Env} (wf : e.WF) (hce : e.constEval = false) {n : Nat} (hf : e.Fits n)
    (hp : n = 0 ∨ proCount e n ≤ n)
    (hst : e.strictPtr = true → n = 0 ∨ (e.size ≤ n ∧ (1 < e.pol.unrollBy → e.size * unroll e ≤ n)))
    (has : e.pol.assumeMatchingSize = true → e.size ∣ n) (inv : Inv S) (st : S) :
    forEachG e inv n st = runGroups (atPos inv) 0 (groupsOf e n) st := by
  unfold forEachG
  by_cases hn0 : n = 0
  · simp [hn0, groupsOf, runGroups]
  have hspan := groupsOf_span hp
  have hp : proCount e n ≤ n := by omega
  have hst : e.strictPtr = true → (e.size ≤ n ∧ (1 < e.pol.unrollBy → e.size * unroll e ≤ n)) := by
    intro h; rcases hst h with h | h
    · exact absurd h hn0
    · exact h
  have hassume : (e.pol.assumeMatchingSize && n % e.size != 0) = false := by
    cases ha : e.pol.assumeMatchingSize
    · rfl
    · simp [Nat.mod_eq_zero_of_dvd (has ha)]
  simp only [hn0, if_false, hassume, Bool.false_eq_true, hce]
  have hsize := wf.size_pos
  have hpas : e.pol.assumeMatchingSize = true → proCount e n = 0 := proCount_assume wf n
  rw [runPrologue_bind wf hf hp _ st (runGroups (atPos inv) 0 (chunked true (bitsAsc (proCount e n))) st)
    (fun h0 K hK ht => prologueRecG_trace e inv K _ hK.K_pos h0 ht st) (by intro h; simp [h, runGroups])]
  unfold groupsOf at hspan ⊢
  simp only [hn0, if_false] at hspan ⊢
  rw [runGroups_append]
  simp only [Outcome.bind_assoc, Outcome.bind_ok, span_chunked, bitsAsc_sum, Nat.zero_add]
  congr 1; funext s1
  clear st
  generalize hP : proCount e n = p at hp hpas hspan ⊢
  -- unrolled loop
  generalize hQ1 : unrolledIters e (n - p) = q1 at hspan ⊢
  have hq1le : q1 * (e.size * unroll e) ≤ n - p := by
    rw [← hQ1]; exact unrolledIters_le _ _
  have ph2 : unrolledLoopG e inv n (p : Int) s1 =
      (runGroups (atPos inv) p (List.replicate q1 ⟨e.size, useAligned e, unroll e⟩) s1 >>= fun s =>
      .ok (((p + q1 * (e.size * unroll e) : Nat) : Int), s)) := by
    unfold unrolledLoopG
    by_cases hu : e.pol.unrollBy > 1
    · simp only [hu, if_true]
      have hU : 1 < unroll e := by unfold unroll; omega
      have hstep : 0 < e.size * unroll e := Nat.mul_pos hsize (by omega)
      have hsp : subPtr e (n : Int) (e.size * e.pol.unrollBy.toNat) = .ok ((n : Int) - (e.size * unroll e : Nat)) := by
        unfold subPtr
        rw [if_neg]
        · rfl
        · simp only [Bool.and_eq_true, decide_eq_true_eq, not_and]
          intro hs
          have := (hst hs).2 hu
          unfold unroll at this
          omega
      rw [hsp]
      simp only [Outcome.bind_ok]
      have hq2 : n - p < q1 * (e.size * unroll e) + e.size * unroll e := by
        simp only [unrolledIters, hu, if_true] at hQ1
        have := Nat.lt_mul_div_succ (n - p) hstep
        rw [hQ1, Nat.mul_succ, Nat.mul_comm _ q1] at this; exact this
      have hqn : q1 ≤ n := by
        have : q1 * 1 ≤ q1 * (e.size * unroll e) := Nat.mul_le_mul_left q1 hstep
        omega
      refine whileLoop_inv inv _ (useAligned e) e.size (unroll e) (n + 1) p q1 s1 ?_ ?_ (by omega)
      · intro i hi
        have := Nat.mul_le_mul_right (e.size * unroll e) (show i + 1 ≤ q1 from hi)
        rw [Nat.succ_mul] at this
        refine decide_eq_true ?_
        omega
      · refine decide_eq_false ?_
        omega
    · have : q1 = 0 := by rw [← hQ1]; simp [unrolledIters, hu]
      subst this
      simp [hu, runGroups]
  rw [ph2, runGroups_append]
  simp only [Outcome.bind_assoc, Outcome.bind_ok, span_replicate, Group.elems]
  congr 1; funext s2
  clear s1 ph2
  generalize hstp : q1 * (e.size * unroll e) = d1 at *
  have hstepd : e.size ∣ d1 := by
    rw [← hstp, show q1 * (e.size * unroll e) = e.size * (unroll e * q1) by rw [Nat.mul_comm, Nat.mul_assoc]]
    exact Nat.dvd_mul_right _ _
  -- main loop
  have hsl : subPtr e (n : Int) e.size = .ok ((n : Int) - (e.size : Nat)) := by
    unfold subPtr
    rw [if_neg]
    simp only [Bool.and_eq_true, decide_eq_true_eq, not_and]
    intro hs
    have := (hst hs).1
    omega
  rw [hsl]
  simp only [Outcome.bind_ok]
  generalize hq2 : (n - p - d1) / e.size = q2 at hspan ⊢
  have hq2le : q2 * e.size ≤ n - p - d1 := by rw [← hq2]; exact Nat.div_mul_le_self _ _
  have hq2lt : n - p - d1 < q2 * e.size + e.size := by
    have := Nat.lt_mul_div_succ (n - p - d1) hsize
    rw [hq2, Nat.mul_succ, Nat.mul_comm e.size] at this; exact this
  have hqn : q2 ≤ n := by
    have : q2 * 1 ≤ q2 * e.size := Nat.mul_le_mul_left q2 hsize
    omega
  have hmod : (n - p) % e.size = n - p - d1 - q2 * e.size := by
    obtain ⟨c, hc⟩ := hstepd
    have : n - p = (n - p - d1 - q2 * e.size) + e.size * (c + q2) := by
      rw [Nat.mul_add, Nat.mul_comm e.size q2, ← hc]; omega
    rw [this, Nat.add_mul_mod_self_left, Nat.mod_eq_of_lt (by omega)]
    rw [← this]
  have ph3 := whileLoop_inv inv (fun first1 => if e.pol.assumeMatchingSize = true then decide (first1 ≠ (n : Int))
        else decide (first1 ≤ (n : Int) - (e.size : Nat))) (useAligned e) e.size 1 (n + 1) (p + d1) q2 s2
    (by
      intro i hi
      have := Nat.mul_le_mul_right e.size (show i + 1 ≤ q2 from hi)
      rw [Nat.succ_mul] at this
      rw [Nat.mul_one]
      by_cases has' : e.pol.assumeMatchingSize = true
      · rw [if_pos has']; refine decide_eq_true ?_; omega
      · rw [if_neg has']; refine decide_eq_true ?_; omega)
    (by
      rw [Nat.mul_one]
      by_cases has' : e.pol.assumeMatchingSize = true
      · rw [if_pos has']
        refine decide_eq_false ?_
        have h1 := hpas has'
        have h2 : (n - p) % e.size = 0 := by rw [h1]; exact Nat.mod_eq_zero_of_dvd (has has')
        omega
      · rw [if_neg has']; refine decide_eq_false ?_; omega)
    (by omega)
  rw [Nat.mul_one] at ph3
  rw [ph3, runGroups_append]
  simp only [Outcome.bind_assoc, Outcome.bind_ok, span_replicate, Group.elems, Nat.mul_one]
  congr 1; funext s3
  clear s2 ph3
  generalize hl : (n - p) % e.size = l at hmod
  by_cases hl0 : l = 0
  · simp [hl0, runGroups]
  · have hs1 : 1 < e.size := by
      rcases Nat.lt_or_ge 1 e.size with h | h
      · exact h
      · exfalso; apply hl0; rw [← hl, show e.size = 1 by omega, Nat.mod_one]
    have has' : e.pol.assumeMatchingSize = false := by
      cases h : e.pol.assumeMatchingSize
      · rfl
      · exfalso; apply hl0; rw [← hl, hpas h]; exact Nat.mod_eq_zero_of_dvd (has h)
    have hll : l < e.size := by rw [← hl]; exact Nat.mod_lt _ hsize
    simp only [hs1, decide_true, has', Bool.not_false, Bool.and_self, if_true, ne_eq, hl0, not_false_eq_true]
    have hpos : p + d1 + q2 * e.size = n - l := by omega
    obtain ⟨K, hK, hK1, hK2⟩ := stdBitCeil_spec hs1
    rw [hpos, epilogueG_trace e inv n K e.size l (useAligned e) hK1 hK2 hll (Or.inl hl0) (by omega) s3]

end ForEach
end Vir
