import Verif.Lemmas.Transform
import Verif.Lemmas.ForEachConst

namespace Vir
open Spec ForEach

variable {α : Type}

namespace Transform

/-- The chunk widths used for a range of `n` elements at run time. -/
def widthsOf (e : Env) (n : Nat) : List Nat :=
  if n = 0 then [] else
  let p := proCount e n
  let m := n - p
  let q1 := unrolledIters e m
  bitsAsc p ++ (List.replicate (q1 * unroll e) e.size ++
    (List.replicate ((m - q1 * (e.size * unroll e)) / e.size) e.size ++ bitsDesc (m % e.size)))

/-- The chunk widths used during constant evaluation. -/
def constWidthsOf (e : Env) (n : Nat) : List Nat :=
  List.replicate (n / e.size) e.size ++ List.replicate (n % e.size) 1

theorem constWidthsOf_sum (e : Env) (n : Nat) : (constWidthsOf e n).sum = n := by
  have := Nat.div_add_mod n e.size
  simp [constWidthsOf, Nat.mul_comm (n / e.size)]
  omega

/-- State of a loop that has advanced by `i` steps of `k` chunks of width `w`. -/
def loopState (t : TEnv) (op : VecOp α α) (mem0 : List α) (ys : List α) (p w k i : Nat) : LoopSt α :=
  (((p + i * (w * k) : Nat) : Int), ((p + i * (w * k) : Nat) : Int),
    writeAt mem0 t.out (ys ++ outs op t.ins mem0 p (List.replicate (i * k) w)))

theorem chunkStep_state {t : TEnv} {mem0 : List α} (ok : RangesOk t mem0) (op : VecOp α α) (aligned : Bool)
    (ys : List α) (p w i : Nat) (hy : ys.length = p) (h : p + (i + 1) * w ≤ t.n)
    (hal : aligned = true → alignedAt t.e ((p + i * w : Nat) : Int) w = true) :
    chunkStep t op aligned w ((p + i * w : Nat) : Int) (loopState t op mem0 ys p w 1 i) =
      .ok (loopState t op mem0 ys p w 1 (i + 1)) := by
  rw [Nat.succ_mul] at h
  simp only [chunkStep, loopState, Nat.mul_one]
  have hl : (outs op t.ins mem0 p (List.replicate i w)).length = i * w := by
    rw [outs_length op ok.ins_ne ok.ins_le p _ (by simp; omega)]; simp
  have d := does_chunk ok op aligned w (p + i * w) hal (by omega)
    (ys ++ outs op t.ins mem0 p (List.replicate i w)) (by rw [List.length_append, hl, hy])
  rw [d]
  simp only [Outcome.bind_ok]
  congr 1
  rw [List.append_assoc, show List.replicate (i + 1) w = List.replicate i w ++ [w] from List.replicate_succ',
    outs_append, Nat.succ_mul]
  simp only [List.sum_replicate_nat]
  refine Prod.ext ?_ (Prod.ext ?_ rfl) <;> simp <;> omega

theorem unrollStep_state {t : TEnv} {mem0 : List α} (ok : RangesOk t mem0) (op : VecOp α α) (aligned : Bool)
    (ys : List α) (p w k i : Nat) (hy : ys.length = p) (h : p + (i + 1) * (w * k) ≤ t.n)
    (hal : aligned = true → AlignedSeq t.e (p + i * (w * k)) (List.replicate k w)) :
    (do
        let vs ← unrollLoads t op (loopState t op mem0 ys p w k i).2.2 w k ((p + i * (w * k) : Nat) : Int)
          (loopState t op mem0 ys p w k i).2.1
        let mem ← unrollStores t aligned w vs (loopState t op mem0 ys p w k i).1 (loopState t op mem0 ys p w k i).2.2
        Outcome.ok ((loopState t op mem0 ys p w k i).1 + ((w * k : Nat) : Int),
          (loopState t op mem0 ys p w k i).2.1 + ((w * k : Nat) : Int), mem)) =
      .ok (loopState t op mem0 ys p w k (i + 1)) := by
  rw [Nat.succ_mul] at h
  simp only [loopState]
  have hsum : i * k * w = i * (w * k) := by rw [Nat.mul_assoc, Nat.mul_comm k]
  have hl : (outs op t.ins mem0 p (List.replicate (i * k) w)).length = i * (w * k) := by
    rw [outs_length op ok.ins_ne ok.ins_le p _ (by simp [hsum]; omega)]; simp [hsum]
  generalize hz : ys ++ outs op t.ins mem0 p (List.replicate (i * k) w) = zs
  have hzl : zs.length = p + i * (w * k) := by rw [← hz, List.length_append, hl, hy]
  obtain ⟨vs, h1, h2, h3, h4⟩ := unrollLoads_eq ok op zs w k (p + i * (w * k)) (by omega) (by omega)
  have st := unrollStores_eq ok aligned w vs zs (by rw [hzl, h3]; exact hal) h4 (by rw [hzl, h3]; omega)
  rw [hzl] at st
  simp only [h1, Outcome.bind_ok, st, h2]
  congr 1
  rw [show (i + 1) * k = i * k + k from Nat.succ_mul _ _, ← List.replicate_append_replicate, outs_append, ← hz,
    Nat.succ_mul]
  simp only [List.sum_replicate_nat, hsum, List.append_assoc]
  refine Prod.ext ?_ (Prod.ext ?_ rfl) <;> simp <;> omega

theorem transform_eq {t : TEnv} {mem0 : List α} (ok : RangesOk t mem0) (wf : t.e.WF)
    (hce : t.e.constEval = false) (hf : t.e.Fits t.n) (hp : t.n = 0 ∨ proCount t.e t.n ≤ t.n)
    (hst : t.e.strictPtr = true →
      t.n = 0 ∨ (t.e.size ≤ t.n ∧ (1 < t.e.pol.unrollBy → t.e.size * unroll t.e ≤ t.n)))
    (has : t.e.pol.assumeMatchingSize = true → t.e.size ∣ t.n) (op : VecOp α α) :
    transform t op mem0 = .ok ((t.n : Int), writeAt mem0 t.out (outs op t.ins mem0 0 (widthsOf t.e t.n))) := by
  unfold transform
  by_cases hn0 : t.n = 0
  · simp [hn0, widthsOf, outs]
  have hp : proCount t.e t.n ≤ t.n := by omega
  have hst : t.e.strictPtr = true →
      (t.e.size ≤ t.n ∧ (1 < t.e.pol.unrollBy → t.e.size * unroll t.e ≤ t.n)) := by
    intro h; rcases hst h with h | h
    · exact absurd h hn0
    · exact h
  have hassume : (t.e.pol.assumeMatchingSize && t.n % t.e.size != 0) = false := by
    cases ha : t.e.pol.assumeMatchingSize
    · rfl
    · simp [Nat.mod_eq_zero_of_dvd (has ha)]
  simp only [hn0, if_false, hassume, Bool.false_eq_true, hce]
  have hsize := wf.size_pos
  have hpal := proCount_aligned wf t.n
  have hpas : t.e.pol.assumeMatchingSize = true → proCount t.e t.n = 0 := proCount_assume wf t.n
  -- prologue
  have ph1 : runPrologue t.e t.n (fun max tp mem => prologueRec t op max tp 0 0 0 mem) 0 mem0 =
      .ok (((proCount t.e t.n : Nat) : Int), t.n - proCount t.e t.n,
        writeAt mem0 t.out (outs op t.ins mem0 0 (bitsAsc (proCount t.e t.n)))) := by
    refine runPrologue_gen wf hf hp _ mem0 _ ?_ ?_
    · intro h0 K hK ht ha
      have hs := alignedSeq_asc wf ha 0 K (by simpa using hK.le_size) (by simpa using ht)
      rw [bitsAsc_eq _ _ ht] at hs
      have := does_prologue ok op K _ hK.K_pos h0 ht (by simpa [Nat.mod_one] using hs) hp [] rfl
      simpa using this
    · intro h0; rw [h0]; simp [outs]
  rw [ph1]
  simp only [Outcome.bind_ok]
  unfold widthsOf
  simp only [hn0, if_false]
  generalize hP : proCount t.e t.n = p at hp hpal hpas ⊢
  generalize hY1 : outs op t.ins mem0 0 (bitsAsc p) = y1
  have hy1 : y1.length = p := by
    rw [← hY1, outs_length op ok.ins_ne ok.ins_le 0 _ (by simp [bitsAsc_sum]; omega), bitsAsc_sum]
  -- unrolled loop
  generalize hQ1 : unrolledIters t.e (t.n - p) = q1
  have hq1le : q1 * (t.e.size * unroll t.e) ≤ t.n - p := by
    rw [← hQ1]
    unfold unrolledIters
    split
    · exact Nat.div_mul_le_self _ _
    · simp
  have ph2 : unrolledLoop t op (p : Int) ((p : Int), (p : Int), writeAt mem0 t.out y1) =
      .ok (((p + q1 * (t.e.size * unroll t.e) : Nat) : Int), loopState t op mem0 y1 p t.e.size (unroll t.e) q1) := by
    unfold unrolledLoop
    by_cases hu : t.e.pol.unrollBy > 1
    · simp only [hu, if_true]
      have hU : 1 < unroll t.e := by unfold unroll; omega
      have hstep : 0 < t.e.size * unroll t.e := Nat.mul_pos hsize (by omega)
      have hsp : subPtr t.e (t.n : Int) (t.e.size * t.e.pol.unrollBy.toNat) =
          .ok ((t.n : Int) - (t.e.size * unroll t.e : Nat)) := by
        unfold subPtr
        rw [if_neg]
        · rfl
        · simp only [Bool.and_eq_true, decide_eq_true_eq, not_and]
          intro hs
          have := (hst hs).2 hu
          unfold unroll at this
          omega
      rw [hsp]
      simp only [Outcome.bind_ok]
      change whileLoop _ (t.e.size * unroll t.e) _ _ _ _ = _
      have hq2 : t.n - p < q1 * (t.e.size * unroll t.e) + t.e.size * unroll t.e := by
        simp only [unrolledIters, hu, if_true] at hQ1
        have := Nat.lt_mul_div_succ (t.n - p) hstep
        rw [hQ1, Nat.mul_succ, Nat.mul_comm _ q1] at this; exact this
      have hqn : q1 ≤ t.n := by
        have : q1 * 1 ≤ q1 * (t.e.size * unroll t.e) := Nat.mul_le_mul_left q1 hstep
        omega
      have hmono : ∀ i, i < q1 → (i + 1) * (t.e.size * unroll t.e) ≤ q1 * (t.e.size * unroll t.e) := fun i hi =>
        Nat.mul_le_mul_right _ hi
      have h0 : ((p : Int), (p : Int), writeAt mem0 t.out y1) =
          loopState t op mem0 y1 p t.e.size (unroll t.e) 0 := by simp [loopState, outs]
      rw [h0]
      refine whileLoop_seq _ _ _ (loopState t op mem0 y1 p t.e.size (unroll t.e)) (t.n + 1) p q1 ?_ ?_ ?_ ?_
      · intro i hi
        have := hmono i hi
        refine unrollStep_state ok op (useAligned t.e) y1 p t.e.size (unroll t.e) i hy1 (by omega) ?_
        intro h
        obtain ⟨hd, ha⟩ := hpal h
        have := dvd_shift hd ha (i * unroll t.e)
        rw [show p + i * unroll t.e * t.e.size = p + i * (t.e.size * unroll t.e) by
          rw [Nat.mul_assoc, Nat.mul_comm (unroll t.e)]] at this
        exact alignedSeq_replicate wf hd _ this _
      · intro i hi
        have := hmono i hi
        rw [Nat.succ_mul] at this
        refine decide_eq_true ?_
        omega
      · refine decide_eq_false ?_
        omega
      · omega
    · have : q1 = 0 := by rw [← hQ1]; simp [unrolledIters, hu]
      subst this
      simp [hu, loopState, outs]
  rw [ph2]
  simp only [Outcome.bind_ok, loopState]
  generalize hstp : q1 * (t.e.size * unroll t.e) = s1 at *
  have hsum1 : q1 * unroll t.e * t.e.size = s1 := by
    rw [← hstp, Nat.mul_assoc, Nat.mul_comm (unroll t.e)]
  generalize hY2 : y1 ++ outs op t.ins mem0 p (List.replicate (q1 * unroll t.e) t.e.size) = y2
  have hy2 : y2.length = p + s1 := by
    rw [← hY2, List.length_append, hy1, outs_length op ok.ins_ne ok.ins_le p _ (by simp [hsum1]; omega)]
    simp [hsum1]
  -- main loop
  have hsl : subPtr t.e (t.n : Int) t.e.size = .ok ((t.n : Int) - (t.e.size : Nat)) := by
    unfold subPtr
    rw [if_neg]
    simp only [Bool.and_eq_true, decide_eq_true_eq, not_and]
    intro hs
    have := (hst hs).1
    omega
  rw [hsl]
  simp only [Outcome.bind_ok]
  have hstepd : t.e.size ∣ s1 := by rw [← hsum1]; exact Nat.dvd_mul_left _ _
  generalize hq2 : (t.n - p - s1) / t.e.size = q2
  have hq2le : q2 * t.e.size ≤ t.n - p - s1 := by rw [← hq2]; exact Nat.div_mul_le_self _ _
  have hq2lt : t.n - p - s1 < q2 * t.e.size + t.e.size := by
    have := Nat.lt_mul_div_succ (t.n - p - s1) hsize
    rw [hq2, Nat.mul_succ, Nat.mul_comm t.e.size] at this; exact this
  have hqn : q2 ≤ t.n := by
    have : q2 * 1 ≤ q2 * t.e.size := Nat.mul_le_mul_left q2 hsize
    omega
  have hmod : (t.n - p) % t.e.size = t.n - p - s1 - q2 * t.e.size := by
    obtain ⟨c, hc⟩ := hstepd
    have : t.n - p = (t.n - p - s1 - q2 * t.e.size) + t.e.size * (c + q2) := by
      rw [Nat.mul_add, Nat.mul_comm t.e.size q2, ← hc]; omega
    rw [this, Nat.add_mul_mod_self_left, Nat.mod_eq_of_lt (by omega)]
    rw [← this]
  have hmono : ∀ i, i < q2 → (i + 1) * t.e.size ≤ q2 * t.e.size := fun i hi => Nat.mul_le_mul_right _ hi
  have h0 : ((((p + s1 : Nat) : Int), ((p + s1 : Nat) : Int), writeAt mem0 t.out y2) : LoopSt α) =
      loopState t op mem0 y2 (p + s1) t.e.size 1 0 := by simp [loopState, outs]
  have ph3 : whileLoop (fun first1 => if t.e.pol.assumeMatchingSize = true then decide (first1 ≠ (t.n : Int))
        else decide (first1 ≤ (t.n : Int) - (t.e.size : Nat)))
      t.e.size (chunkStep t op (useAligned t.e) t.e.size) (t.n + 1) ((p + s1 : Nat) : Int)
      (((p + s1 : Nat) : Int), ((p + s1 : Nat) : Int), writeAt mem0 t.out y2) =
      .ok (((p + s1 + q2 * t.e.size : Nat) : Int), loopState t op mem0 y2 (p + s1) t.e.size 1 q2) := by
    rw [h0]
    refine whileLoop_seq _ _ _ (loopState t op mem0 y2 (p + s1) t.e.size 1) (t.n + 1) (p + s1) q2 ?_ ?_ ?_ ?_
    · intro i hi
      have := hmono i hi
      refine chunkStep_state ok op (useAligned t.e) y2 (p + s1) t.e.size i hy2 (by omega) ?_
      intro h
      obtain ⟨hd, ha⟩ := hpal h
      have := dvd_shift hd ha (q1 * unroll t.e)
      rw [hsum1] at this
      have := dvd_shift hd this i
      exact (alignedAt_iff _ _ _ (wf.al_pos _)).2 this
    · intro i hi
      have := hmono i hi
      rw [Nat.succ_mul] at this
      by_cases has' : t.e.pol.assumeMatchingSize = true
      · rw [if_pos has']; refine decide_eq_true ?_; omega
      · rw [if_neg has']; refine decide_eq_true ?_; omega
    · by_cases has' : t.e.pol.assumeMatchingSize = true
      · rw [if_pos has']
        refine decide_eq_false ?_
        have h1 := hpas has'
        have h2 : (t.n - p) % t.e.size = 0 := by rw [h1]; exact Nat.mod_eq_zero_of_dvd (has has')
        omega
      · rw [if_neg has']; refine decide_eq_false ?_; omega
    · omega
  rw [ph3]
  simp only [Outcome.bind_ok, loopState, Nat.mul_one]
  generalize hY3 : y2 ++ outs op t.ins mem0 (p + s1) (List.replicate q2 t.e.size) = y3
  have hy3 : y3.length = p + s1 + q2 * t.e.size := by
    rw [← hY3, List.length_append, hy2, outs_length op ok.ins_ne ok.ins_le _ _ (by simp; omega)]
    simp
  -- the result
  have hfin : outs op t.ins mem0 0 (bitsAsc p ++ (List.replicate (q1 * unroll t.e) t.e.size ++
      (List.replicate q2 t.e.size ++ bitsDesc ((t.n - p) % t.e.size)))) =
      y3 ++ outs op t.ins mem0 (p + s1 + q2 * t.e.size) (bitsDesc ((t.n - p) % t.e.size)) := by
    rw [outs_append, outs_append, outs_append, hY1, ← hY3, ← hY2]
    simp [bitsAsc_sum, hsum1]
  rw [hfin]
  generalize hl : (t.n - p) % t.e.size = l at hmod
  by_cases hl0 : l = 0
  · have hend : p + s1 + q2 * t.e.size = t.n := by omega
    simp [hl0, outs, hend]
  · have hs1 : 1 < t.e.size := by
      rcases Nat.lt_or_ge 1 t.e.size with h | h
      · exact h
      · exfalso; apply hl0; rw [← hl, show t.e.size = 1 by omega, Nat.mod_one]
    have has' : t.e.pol.assumeMatchingSize = false := by
      cases h : t.e.pol.assumeMatchingSize
      · rfl
      · exfalso; apply hl0; rw [← hl, hpas h]; exact Nat.mod_eq_zero_of_dvd (has h)
    have hll : l < t.e.size := by rw [← hl]; exact Nat.mod_lt _ hsize
    simp only [hs1, decide_true, has', Bool.not_false, Bool.and_self, if_true, ne_eq, hl0, not_false_eq_true]
    have hpos : p + s1 + q2 * t.e.size = t.n - l := by omega
    obtain ⟨K, hK, hK1, hK2⟩ := stdBitCeil_spec hs1
    rw [hpos]
    have d := does_epilogue ok op K t.e.size l (useAligned t.e) hK1 hK2 hll hl0 (by omega) (by
      intro h
      obtain ⟨hd, ha⟩ := hpal h
      have := dvd_shift hd ha (q1 * unroll t.e)
      rw [hsum1] at this
      have := dvd_shift hd this q2
      rw [hpos] at this
      have key := alignedSeq_desc wf (l := l) (k := K + 1) (fun j hj hb => by
        have := Nat.ge_two_pow_of_testBit hb; omega) this 0 (Nat.dvd_zero _)
      rw [bitsDesc_eq l (K + 1) (by omega)] at key
      simpa using key) y3 (by omega)
    rw [d]
    simp only [Outcome.bind_ok]
    congr 2
    omega

/-- During constant evaluation. -/
theorem transform_const_eq {t : TEnv} {mem0 : List α} (ok : RangesOk t mem0) (hs : 0 < t.e.size)
    (hce : t.e.constEval = true) (hpt : t.e.strictPtr = true → t.n % t.e.size + 1 = t.e.size)
    (has : t.e.pol.assumeMatchingSize = true → t.e.size ∣ t.n) (op : VecOp α α) :
    transform t op mem0 =
      .ok ((t.n : Int), writeAt mem0 t.out (outs op t.ins mem0 0 (constWidthsOf t.e t.n))) := by
  unfold transform
  by_cases hn0 : t.n = 0
  · simp [hn0, constWidthsOf, outs]
  have hassume : (t.e.pol.assumeMatchingSize && t.n % t.e.size != 0) = false := by
    cases ha : t.e.pol.assumeMatchingSize
    · rfl
    · simp [Nat.mod_eq_zero_of_dvd (has ha)]
  simp only [hn0, if_false, hassume, Bool.false_eq_true, hce, if_true]
  have hdm := Nat.div_add_mod t.n t.e.size
  rw [Nat.mul_comm] at hdm
  have h0 : (((0 : Int), (0 : Int), mem0) : LoopSt α) = loopState t op mem0 [] 0 t.e.size 1 0 := by
    simp [loopState, outs]
  have ph1 := constLoop_seq hs t.n hpt (chunkStep t op false t.e.size) (loopState t op mem0 [] 0 t.e.size 1)
    (by
      intro i hi
      have := Nat.mul_le_mul_right t.e.size (show i + 1 ≤ t.n / t.e.size from hi)
      have := chunkStep_state ok op false [] 0 t.e.size i rfl (by omega) (by simp)
      simpa using this)
  rw [← h0] at ph1
  rw [ph1]
  simp only [Outcome.bind_ok, loopState, Nat.mul_one, Nat.zero_add, List.nil_append]
  generalize hq : t.n / t.e.size = q at *
  generalize hY : outs op t.ins mem0 0 (List.replicate q t.e.size) = y
  have hy : y.length = q * t.e.size := by
    rw [← hY, outs_length op ok.ins_ne ok.ins_le 0 _ (by simp; omega)]; simp
  generalize hl : t.n % t.e.size = l at *
  have h1 : ((((q * t.e.size : Nat) : Int), ((q * t.e.size : Nat) : Int), writeAt mem0 t.out y) : LoopSt α) =
      loopState t op mem0 y (q * t.e.size) 1 1 0 := by simp [loopState, outs]
  rw [h1]
  rw [whileLoop_seq _ 1 _ (loopState t op mem0 y (q * t.e.size) 1 1) (t.n + 1) (q * t.e.size) l
    (by
      intro i hi
      exact chunkStep_state ok op false y (q * t.e.size) 1 i hy (by omega) (by simp))
    (by intro i hi; refine decide_eq_true ?_; omega)
    (by refine decide_eq_false ?_; omega) (by omega)]
  simp only [Outcome.bind_ok, loopState, Nat.mul_one, constWidthsOf, hl, hq]
  rw [outs_append, hY]
  simp [hdm]

end Transform
end Vir
