import Verif.Lemmas.TransformReduce

namespace Vir
open Spec ForEach

theorem runPrologue_ex {S : Type} {e : Env} (wf : e.WF) {n : Nat} (hf : e.Fits n) (hp : proCount e n ≤ n)
    (doPro : Nat → Nat → S → Outcome S) (st : S) (Q : S → Prop)
    (h1 : proCount e n ≠ 0 → ∀ K, ProInfo e K → proCount e n < 2 ^ K →
      e.al e.size ∣ e.addr + proCount e n * e.sz → ∃ st', doPro (2 ^ K) (proCount e n) st = .ok st' ∧ Q st')
    (h0 : proCount e n = 0 → Q st) :
    ∃ st', runPrologue e n doPro 0 st = .ok (((proCount e n : Nat) : Int), n - proCount e n, st') ∧ Q st' := by
  by_cases hz : proCount e n = 0
  · exact ⟨st, runPrologue_gen wf hf hp doPro st st (fun h => absurd hz h) (fun _ => rfl), h0 hz⟩
  · rcases proCount_cases e n with h | ⟨h2, h3, h4⟩
    · exact absurd h hz
    · obtain ⟨K, hK⟩ := proInfo wf h2
      obtain ⟨st', hs, hq⟩ := h1 hz K hK (by rw [h4]; exact hK.tp_lt h3) (by rw [h4]; exact hK.tp_al)
      refine ⟨st', runPrologue_gen wf hf hp doPro st st' ?_ (fun h => absurd h hz), hq⟩
      intro _ K' hK' _ _
      rw [← hK'.max, hK.max]; exact hs

namespace TransformReduce

variable {α β τ : Type} {R : REnv α β τ} {mem : List α}

theorem vals_replicate_add (p a b w : Nat) :
    vals R mem p (List.replicate (a + b) w) =
      vals R mem p (List.replicate a w) ++ vals R mem (p + a * w) (List.replicate b w) := by
  rw [← List.replicate_append_replicate, vals_append]
  simp

/-- Aligned accesses after the prologue. -/
def AlignedFrom (R : REnv α β τ) (p : Nat) : Prop :=
  useAligned R.e = true → R.e.al R.e.size ∣ R.e.size * R.e.sz ∧ R.e.al R.e.size ∣ R.e.addr + p * R.e.sz

theorem AlignedFrom.step {p : Nat} (h : AlignedFrom R p) (q : Nat) : AlignedFrom R (p + q * R.e.size) := by
  intro hu
  obtain ⟨h1, h2⟩ := h hu
  exact ⟨h1, dvd_shift h1 h2 q⟩

theorem AlignedFrom.seq (wf : R.e.WF) {p : Nat} (h : AlignedFrom R p) (q : Nat) :
    useAligned R.e = true → AlignedSeq R.e p (List.replicate q R.e.size) := by
  intro hu
  obtain ⟨h1, h2⟩ := h hu
  exact alignedSeq_replicate wf h1 _ h2 _

theorem firstLoad_vsum (ok : InputsOk R mem) (wf : R.e.WF) {p : Nat} (hal : AlignedFrom R p)
    (h : p + R.e.size ≤ R.n) :
    ∃ a, firstLoad R mem (p : Int) (p : Int) =
        .ok (((p + 1 * R.e.size : Nat) : Int), ((p + 1 * R.e.size : Nat) : Int), a) ∧
      a.length = R.e.size ∧ VSum R.rT (vals R mem p (List.replicate 1 R.e.size)) a := by
  unfold firstLoad
  rw [loadFlag1_eq ok (useAligned R.e) p R.e.size (fun hu => (hal.seq wf 1 hu).1) h]
  simp only [Outcome.bind_ok, Nat.one_mul, Int.natCast_add]
  refine ⟨_, rfl, by simp [chunkV_length ok p _ h], ?_⟩
  simpa [vals_cons] using VSum.refl R.rT ((chunkV R mem p R.e.size).map R.cvt)

theorem initAcc_vsum (ok : InputsOk R mem) (wf : R.e.WF) {p : Nat} (hal : AlignedFrom R p)
    (hst : R.e.strictPtr = true → 1 < R.e.pol.unrollBy → p + R.e.size * unroll R.e ≤ R.n)
    (h : p + R.e.size ≤ R.n) :
    ∃ q a, p + q * R.e.size ≤ R.n ∧
      initAcc R mem (p : Int) (p : Int) =
        .ok (((p + q * R.e.size : Nat) : Int), ((p + q * R.e.size : Nat) : Int), a) ∧
      a.length = R.e.size ∧ VSum R.rT (vals R mem p (List.replicate q R.e.size)) a := by
  have hsize := wf.size_pos
  unfold initAcc
  by_cases hu : R.e.pol.unrollBy > 1
  · simp only [hu, if_true]
    have hU : 1 < unroll R.e := by unfold unroll; omega
    have hstep : 0 < R.e.size * unroll R.e := Nat.mul_pos hsize (by omega)
    have hsp : subPtr R.e (R.n : Int) (R.e.size * R.e.pol.unrollBy.toNat) =
        .ok ((R.n : Int) - (R.e.size * unroll R.e : Nat)) := by
      unfold subPtr
      rw [if_neg]
      · rfl
      · simp only [Bool.and_eq_true, decide_eq_true_eq, not_and]
        intro hs
        have := hst hs hu
        unfold unroll at this
        omega
    have hap : addPtr R.e R.n (p : Int) (R.e.size * R.e.pol.unrollBy.toNat) =
        .ok (((p + R.e.size * unroll R.e : Nat) : Int)) := by
      unfold addPtr
      rw [if_neg]
      · rw [Int.natCast_add]; rfl
      · simp only [Bool.and_eq_true, decide_eq_true_eq, not_and]
        intro hs
        have := hst hs hu
        unfold unroll at this
        omega
    rw [hsp, hap]
    simp only [Outcome.bind_ok]
    by_cases hn : ((p + R.e.size * unroll R.e : Nat) : Int) ≤ (R.n : Int) - (R.e.size * unroll R.e : Nat)
    · rw [if_pos hn]
      have hU' : R.e.pol.unrollBy.toNat = unroll R.e := rfl
      simp only [hU']
      obtain ⟨acc, hi1, hi2⟩ := unrolledInit_inv ok (useAligned R.e) (unroll R.e) p (hal.seq wf _) (by omega)
      rw [hi1]
      simp only [Outcome.bind_ok]
      -- one iteration of the body
      have body : ∀ (i : Nat) (acc : List (List τ)),
          p + i * (R.e.size * unroll R.e) + R.e.size * unroll R.e ≤ R.n →
          AccsInv R (vals R mem p (List.replicate (i * unroll R.e) R.e.size)) (unroll R.e) acc →
          ∃ acc', unrolledBody R mem (useAligned R.e) R.e.size acc
              ((p + i * (R.e.size * unroll R.e) : Nat) : Int) ((p + i * (R.e.size * unroll R.e) : Nat) : Int) =
              .ok acc' ∧
            AccsInv R (vals R mem p (List.replicate ((i + 1) * unroll R.e) R.e.size)) (unroll R.e) acc' := by
        intro i acc hle hinv
        have hl := hinv.1
        have hmul : i * (R.e.size * unroll R.e) = i * unroll R.e * R.e.size := by
          rw [Nat.mul_assoc, Nat.mul_comm (unroll R.e)]
        have := unrolledBody_inv ok (useAligned R.e) (p + i * (R.e.size * unroll R.e)) acc
          (by rw [hmul]; exact (hal.step _).seq wf _) (by rw [hl]; exact hle) _ (by rw [hl]; exact hinv)
        obtain ⟨acc', h1, h2⟩ := this
        refine ⟨acc', h1, ?_⟩
        rw [hl] at h2
        rw [Nat.succ_mul, vals_replicate_add, ← hmul]
        exact h2
      obtain ⟨acc1, hb1, hb2⟩ := body 1 acc (by omega) (by simpa using hi2)
      rw [Nat.one_mul, Int.natCast_add] at hb1
      rw [hb1]
      simp only [Outcome.bind_ok]
      -- the remaining iterations
      generalize hq : (R.n - p) / (R.e.size * unroll R.e) = q
      have hqle : q * (R.e.size * unroll R.e) ≤ R.n - p := by rw [← hq]; exact Nat.div_mul_le_self _ _
      have hqlt : R.n - p < q * (R.e.size * unroll R.e) + R.e.size * unroll R.e := by
        have := Nat.lt_mul_div_succ (R.n - p) hstep
        rw [hq, Nat.mul_succ, Nat.mul_comm _ q] at this; exact this
      have hq2 : 2 ≤ q := by
        rw [← hq]
        exact (Nat.le_div_iff_mul_le hstep).2 (by omega)
      obtain ⟨q', rfl⟩ : ∃ q', q = q' + 2 := ⟨q - 2, by omega⟩
      have hqn : q' < R.n + 1 := by
        have : (q' + 2) * 1 ≤ (q' + 2) * (R.e.size * unroll R.e) := Nat.mul_le_mul_left _ hstep
        omega
      have key : ∀ i, p + R.e.size * unroll R.e + R.e.size * unroll R.e + i * (R.e.size * unroll R.e) =
          p + (i + 2) * (R.e.size * unroll R.e) := by
        intro i; rw [Nat.add_mul]; omega
      have hmono : ∀ i, i < q' → (i + 2 + 1) * (R.e.size * unroll R.e) ≤ (q' + 2) * (R.e.size * unroll R.e) :=
        fun i hi => Nat.mul_le_mul_right _ (by omega)
      have loop := whileLoop_inv (fun first1 => decide (first1 ≤ (R.n : Int) - (R.e.size * unroll R.e : Nat)))
        (R.e.size * unroll R.e)
        (fun (first1 : Int) (st : Int × List (List τ)) => do
          let acc ← unrolledBody R mem (useAligned R.e) R.e.size st.2 first1 st.1
          Outcome.ok (st.1 + ((R.e.size * unroll R.e : Nat) : Int), acc))
        (fun i st => st.1 = ((p + (i + 2) * (R.e.size * unroll R.e) : Nat) : Int) ∧
          AccsInv R (vals R mem p (List.replicate ((i + 2) * unroll R.e) R.e.size)) (unroll R.e) st.2)
        (R.n + 1) (p + R.e.size * unroll R.e + R.e.size * unroll R.e) q'
        ((p : Int) + ((R.e.size * unroll R.e : Nat) : Int) + ((R.e.size * unroll R.e : Nat) : Int), acc1)
        ⟨by simp only []; omega, by simpa using hb2⟩
        (by
          rintro i ⟨f2, acc2⟩ hi ⟨e1, e2⟩
          simp only at e1 e2
          subst e1
          have := hmono i hi
          rw [Nat.succ_mul] at this
          rw [key]
          obtain ⟨acc3, h1, h2⟩ := body (i + 2) acc2 (by omega) e2
          simp only [h1, Outcome.bind_ok]
          refine ⟨_, rfl, ?_, by simpa [Nat.add_right_comm] using h2⟩
          simp only [Nat.add_right_comm i 1 2]
          rw [Nat.succ_mul (i + 2)]
          omega)
        (by
          intro i hi
          have := hmono i hi
          rw [Nat.succ_mul] at this
          rw [key]
          refine decide_eq_true ?_
          omega)
        (by
          rw [key]
          refine decide_eq_false ?_
          omega)
        hqn
      obtain ⟨⟨f2, acc2⟩, hw, e1, hacc⟩ := loop
      simp only at e1 hacc
      subst e1
      have hcast : ((p + R.e.size * unroll R.e + R.e.size * unroll R.e : Nat) : Int) =
          (p : Int) + ((R.e.size * unroll R.e : Nat) : Int) + ((R.e.size * unroll R.e : Nat) : Int) := by omega
      rw [hcast] at hw
      rw [hw]
      simp only [Outcome.bind_ok]
      obtain ⟨hlen, hw2, xss, hxs, hperm⟩ := hacc
      obtain ⟨a, rest, ht, hg⟩ := treeReduce_gsum (vop R) acc2
        (by intro h; rw [h] at hlen; simp at hlen; omega)
      rw [hlen] at ht
      rw [ht]
      simp only [acc0, Outcome.bind_ok]
      obtain ⟨ha1, ha2⟩ := Spec.GSum.vsum hg R.e.size hw2 hxs
      have hm : (q' + 2) * unroll R.e * R.e.size = (q' + 2) * (R.e.size * unroll R.e) := by
        rw [Nat.mul_assoc, Nat.mul_comm (unroll R.e)]
      refine ⟨(q' + 2) * unroll R.e, a, by rw [hm]; omega, ?_, ha1, ha2.perm hperm⟩
      rw [hm, key]
    · rw [if_neg hn]
      obtain ⟨a, h1, h2, h3⟩ := firstLoad_vsum ok wf hal h
      exact ⟨1, a, by omega, h1, h2, h3⟩
  · simp only [hu, if_false]
    obtain ⟨a, h1, h2, h3⟩ := firstLoad_vsum ok wf hal h
    exact ⟨1, a, by omega, h1, h2, h3⟩

theorem finish_gsum (ok : InputsOk R mem) (wf : R.e.WF) (hT : HReduce R.rT R.hredT) (l p : Nat)
    (hl : l < R.e.size) (hp : p + l ≤ R.n) (hal : AlignedFrom R p) (has : R.e.pol.assumeMatchingSize = true → l = 0)
    (xs ys a : List τ) (acc1 : τ) (hx : GSum R.rT xs acc1) (hy : VSum R.rT ys a) (ha : a.length = R.e.size) :
    ∃ v, finish R mem l acc1 ((p : Int), (p : Int), a) = .ok v ∧
      GSum R.rT (xs ++ ys ++ vals R mem p (bitsDesc l)) v := by
  have hne : a ≠ [] := by intro h; rw [h] at ha; simp at ha; omega
  unfold finish
  by_cases hs : R.e.size = 1
  · rw [if_pos hs]
    obtain rfl : l = 0 := by omega
    rw [hs] at ha
    obtain ⟨x, rfl⟩ := List.length_eq_one_iff.1 ha
    refine ⟨_, rfl, ?_⟩
    simpa using GSum.node hx (hy.reduce (GSum.single x))
  · rw [if_neg hs]
    by_cases hl0 : l = 0
    · subst hl0
      simp only [decide_true, Bool.or_true, if_true]
      refine ⟨_, rfl, ?_⟩
      simpa using GSum.node hx (hy.reduce (hT _ hne))
    · have has' : R.e.pol.assumeMatchingSize = false := by
        cases h : R.e.pol.assumeMatchingSize
        · rfl
        · exact absurd (has h) hl0
      have hs1 : 1 < R.e.size := by omega
      obtain ⟨K, hK, hK1, hK2⟩ := stdBitCeil_spec hs1
      have hlo : stdBitCeil R.e.size / 2 = 2 ^ K := by rw [hK, Nat.pow_succ]; omega
      simp only [has', hl0, decide_false, Bool.or_self, Bool.false_eq_true, if_false, hlo, Nat.log2_two_pow]
      have hmod : l % 2 ^ (K + 1) = l := Nat.mod_eq_of_lt (by omega)
      have hal' : useAligned R.e = true → AlignedSeq R.e p (descBits l (K + 1)) := by
        intro h
        obtain ⟨hd, haa⟩ := hal h
        have key := alignedSeq_desc wf (l := l) (k := K + 1) (fun j hj hb => by
          have := Nat.ge_two_pow_of_testBit hb; omega) haa 0 (Nat.dvd_zero _)
        simpa using key
      have hbits : descBits l (K + 1) = bitsDesc l := bitsDesc_eq l (K + 1) (by omega)
      by_cases heq : 2 ^ K = R.e.size - 2 ^ K
      · rw [if_pos heq]
        have hh : a.length = 2 ^ K + 2 ^ K := by omega
        have := epilogueAcc_gsum ok hT (useAligned R.e) l K p (by omega) (by omega) hal' xs ys _ acc1 hx
          (hy.fold hh) (fold_length hh rfl)
        rw [hbits] at this
        exact this
      · rw [if_neg heq]
        obtain ⟨us, vs, hperm, hu, hv⟩ := hy.split (2 ^ K)
        have hdne : a.drop (2 ^ K) ≠ [] := by
          intro h
          have := congrArg List.length h
          simp at this; omega
        simp only [vop_single, lane0_single, Outcome.bind_ok]
        have hx' := GSum.node hx (hv.reduce (hT _ hdne))
        obtain ⟨v, h1, h2⟩ := epilogueAcc_gsum ok hT (useAligned R.e) l K p (by omega) (by omega) hal' _ us
          (a.take (2 ^ K)) _ hx' hu (by rw [List.length_take]; omega)
        refine ⟨v, h1, ?_⟩
        rw [hbits] at h2
        refine GSum.perm ?_ h2
        refine List.Perm.append_right _ ?_
        rw [List.append_assoc]
        exact List.Perm.append_left _ (List.perm_append_comm.trans hperm)

/-- The chunk widths used by the prologue. -/
def proWidths (e : Env) (n : Nat) : List Nat := if n = 0 then [] else bitsAsc (proCount e n)

/-- The chunk widths used after the prologue. -/
def mainWidths (e : Env) (n : Nat) : List Nat :=
  if n = 0 then [] else
  let p := proCount e n
  List.replicate ((n - p) / e.size) e.size ++ bitsDesc ((n - p) % e.size)

theorem widths_sum (e : Env) (n : Nat) (hp : n = 0 ∨ proCount e n ≤ n) :
    (proWidths e n).sum + (mainWidths e n).sum = n := by
  unfold proWidths mainWidths
  by_cases hn : n = 0
  · simp [hn]
  · have := Nat.div_add_mod (n - proCount e n) e.size
    rw [Nat.mul_comm] at this
    simp only [hn, if_false, List.sum_append, bitsAsc_sum, bitsDesc_sum, List.sum_replicate_nat]
    omega

theorem transformReduce_gsum (ok : InputsOk R mem) (wf : R.e.WF) (hce : R.e.constEval = false)
    (hf : R.e.Fits R.n) (hp : R.n = 0 ∨ proCount R.e R.n < R.n)
    (hst : R.e.strictPtr = true → R.n = 0 ∨ (R.e.size ≤ R.n ∧
      (proCount R.e R.n + R.e.size ≤ R.n → 1 < R.e.pol.unrollBy → proCount R.e R.n + R.e.size * unroll R.e ≤ R.n)))
    (has : R.e.pol.assumeMatchingSize = true → R.e.size ∣ R.n)
    (hT : HReduce R.rT R.hredT)
    (hB : proCount R.e R.n ≠ 0 → HReduce R.rB R.hredB) (init : τ) :
    ∃ v ys, transformReduce R mem init = .ok v ∧
      Grouped R.rB R.cvt (outs R.trans R.ins mem 0 (proWidths R.e R.n)) ys ∧
      GSum R.rT (init :: (ys ++ vals R mem (proWidths R.e R.n).sum (mainWidths R.e R.n))) v := by
  unfold transformReduce proWidths mainWidths
  by_cases hn0 : R.n = 0
  · exact ⟨init, [], by simp [hn0], by simpa [hn0, outs] using Grouped.nil, by simpa [hn0] using GSum.single init⟩
  have hp : proCount R.e R.n < R.n := by omega
  have hst : R.e.strictPtr = true → (R.e.size ≤ R.n ∧
      (proCount R.e R.n + R.e.size ≤ R.n → 1 < R.e.pol.unrollBy → proCount R.e R.n + R.e.size * unroll R.e ≤ R.n)) := by
    intro h; rcases hst h with h | h
    · exact absurd h hn0
    · exact h
  have hassume : (R.e.pol.assumeMatchingSize && R.n % R.e.size != 0) = false := by
    cases ha : R.e.pol.assumeMatchingSize
    · rfl
    · simp [Nat.mod_eq_zero_of_dvd (has ha)]
  simp only [hn0, if_false, hassume, Bool.false_eq_true, hce]
  have hsize := wf.size_pos
  have hpal : AlignedFrom R (proCount R.e R.n) := proCount_aligned wf R.n
  have hpas : R.e.pol.assumeMatchingSize = true → proCount R.e R.n = 0 := proCount_assume wf R.n
  -- prologue
  obtain ⟨acc1, ph1, ys, hys, hx⟩ := runPrologue_ex wf hf (Nat.le_of_lt hp)
    (fun max tp acc1 => prologueRec R mem max tp 0 acc1) init
    (fun acc1 => ∃ ys, Grouped R.rB R.cvt (outs R.trans R.ins mem 0 (bitsAsc (proCount R.e R.n))) ys ∧
      GSum R.rT (init :: ys) acc1)
    (by
      intro h0 K hK ht ha
      have hs := alignedSeq_asc wf ha 0 K (by simpa using hK.le_size) (by simpa using ht)
      have hb1 := bitsAsc_eq (proCount R.e R.n) (K + 1) (by rw [Nat.pow_succ]; omega)
      rw [bitsAsc_eq _ _ ht] at hs
      have := prologue_gsum ok (hB h0) K _ 0 (K + 1) ht (by omega) (by omega)
        (by simpa [Nat.mod_one, hb1] using hs) (Nat.le_of_lt hp) [init] init (GSum.single init)
      rw [hb1] at this
      obtain ⟨v, ys, h1, h2, h3⟩ := this
      exact ⟨v, h1, ys, by simpa [Nat.mod_one] using h2, by simpa using h3⟩)
    (by intro h0; rw [h0]; exact ⟨[], by simpa [outs] using Grouped.nil, GSum.single init⟩)
  rw [ph1]
  simp only [Outcome.bind_ok]
  generalize hP : proCount R.e R.n = p at hp hpal hpas hst hx hys ⊢
  have hsl : subPtr R.e (R.n : Int) R.e.size = .ok ((R.n : Int) - (R.e.size : Nat)) := by
    unfold subPtr
    rw [if_neg]
    simp only [Bool.and_eq_true, decide_eq_true_eq, not_and]
    intro hs
    have := (hst hs).1
    omega
  rw [hsl]
  simp only [Outcome.bind_ok]
  have hfirst : vals R mem (bitsAsc p).sum (List.replicate ((R.n - p) / R.e.size) R.e.size ++
      bitsDesc ((R.n - p) % R.e.size)) =
        vals R mem p (List.replicate ((R.n - p) / R.e.size) R.e.size) ++
          vals R mem (p + (R.n - p) / R.e.size * R.e.size) (bitsDesc ((R.n - p) % R.e.size)) := by
    rw [vals_append, bitsAsc_sum]
    simp
  rw [hfirst]
  have hdm := Nat.div_add_mod (R.n - p) R.e.size
  rw [Nat.mul_comm] at hdm
  generalize hQ : (R.n - p) / R.e.size = Q at hdm ⊢
  generalize hL : (R.n - p) % R.e.size = l at hdm ⊢
  have hll : l < R.e.size := by rw [← hL]; exact Nat.mod_lt _ hsize
  have hlas : R.e.pol.assumeMatchingSize = true → l = 0 := by
    intro h; rw [← hL, hpas h]; exact Nat.mod_eq_zero_of_dvd (has h)
  by_cases hfit : p + R.e.size ≤ R.n
  · have hcond : (R.e.pol.assumeMatchingSize || decide ((p : Int) ≤ (R.n : Int) - (R.e.size : Nat))) = true := by
      rw [Bool.or_eq_true]; right; refine decide_eq_true ?_; omega
    rw [if_pos hcond]
    obtain ⟨q, a, hq1, hi, ha1, ha2⟩ := initAcc_vsum ok wf hpal (fun h1 h2 => (hst h1).2 hfit h2) hfit
    rw [hi]
    simp only [Outcome.bind_ok]
    have hqQ : q ≤ Q := by
      rw [← hQ]; exact (Nat.le_div_iff_mul_le hsize).2 (by omega)
    obtain ⟨q2, rfl⟩ : ∃ q2, Q = q + q2 := ⟨Q - q, by omega⟩
    rw [Nat.add_mul] at hdm
    have hmono : ∀ i, i < q2 → (i + 1) * R.e.size ≤ q2 * R.e.size := fun i hi => Nat.mul_le_mul_right _ hi
    have hqn : q2 < R.n + 1 := by
      have : q2 * 1 ≤ q2 * R.e.size := Nat.mul_le_mul_left q2 hsize
      omega
    obtain ⟨⟨f2, a2⟩, hw, e1, hv1, hv2⟩ := whileLoop_inv
      (fun first1 => if R.e.pol.assumeMatchingSize = true then decide (first1 ≠ (R.n : Int))
        else decide (first1 ≤ (R.n : Int) - (R.e.size : Nat)))
      R.e.size
      (fun first1 (st : Int × List τ) => do
        let v ← loadFlag1AndInvoke R mem (useAligned R.e) R.e.size first1 st.1
        Outcome.ok (st.1 + (R.e.size : Int), vop R st.2 (v.map R.cvt)))
      (fun i st => st.1 = ((p + q * R.e.size + i * R.e.size : Nat) : Int) ∧ st.2.length = R.e.size ∧
        VSum R.rT (vals R mem p (List.replicate (q + i) R.e.size)) st.2)
      (R.n + 1) (p + q * R.e.size) q2 (((p + q * R.e.size : Nat) : Int), a)
      ⟨by simp, ha1, ha2⟩
      (by
        rintro i ⟨f2, a2⟩ hi ⟨e1, e2, e3⟩
        simp only at e1 e2 e3
        subst e1
        have := hmono i hi
        rw [Nat.succ_mul] at this
        have hle : p + q * R.e.size + i * R.e.size + R.e.size ≤ R.n := by omega
        simp only [loadFlag1_eq ok (useAligned R.e) (p + q * R.e.size + i * R.e.size) R.e.size
          (fun hu => (((hpal.step q).step i).seq wf 1 hu).1) hle, Outcome.bind_ok]
        have hc := chunkV_length ok _ _ hle
        refine ⟨_, rfl, ?_, by simp [vop, hc, e2], ?_⟩
        · simp only; rw [Nat.succ_mul]; omega
        · simp only
          rw [← Nat.add_assoc, vals_replicate_add p (q + i) 1]
          rw [Nat.add_mul, ← Nat.add_assoc]
          have := vsum_vop e3 (VSum.refl R.rT ((chunkV R mem (p + q * R.e.size + i * R.e.size) R.e.size).map R.cvt))
            (by simp [hc, e2])
          simpa [vals_cons] using this)
      (by
        intro i hi
        have := hmono i hi
        rw [Nat.succ_mul] at this
        by_cases has' : R.e.pol.assumeMatchingSize = true
        · simp only [has', if_true]; refine decide_eq_true ?_; omega
        · simp only [has', if_false, Bool.false_eq_true]; refine decide_eq_true ?_; omega)
      (by
        by_cases has' : R.e.pol.assumeMatchingSize = true
        · simp only [has', if_true]
          refine decide_eq_false ?_
          have h1 := hpas has'
          have h2 := hlas has'
          omega
        · simp only [has', if_false, Bool.false_eq_true]; refine decide_eq_false ?_; omega)
      hqn
    simp only at e1 hv1 hv2
    subst e1
    rw [hw]
    simp only [Outcome.bind_ok]
    obtain ⟨v, h1, h2⟩ := finish_gsum ok wf hT l (p + q * R.e.size + q2 * R.e.size) hll (by omega)
      ((hpal.step q).step q2) hlas _ _ a2 acc1 hx hv2 hv1
    refine ⟨v, ys, h1, hys, ?_⟩
    rw [Nat.add_mul, ← Nat.add_assoc]
    simpa using h2
  · have hQ0 : Q = 0 := by
      rcases Nat.eq_zero_or_pos Q with h | h
      · exact h
      · have : 1 * R.e.size ≤ Q * R.e.size := Nat.mul_le_mul_right _ h
        omega
    subst hQ0
    have hl0 : l ≠ 0 := by omega
    have has' : R.e.pol.assumeMatchingSize = false := by
      cases h : R.e.pol.assumeMatchingSize
      · rfl
      · exact absurd (hlas h) hl0
    have hcond : ¬ (R.e.pol.assumeMatchingSize || decide ((p : Int) ≤ (R.n : Int) - (R.e.size : Nat))) = true := by
      rw [has', Bool.false_or, decide_eq_true_eq]; omega
    rw [if_neg hcond]
    have hs1 : 1 < R.e.size := by omega
    obtain ⟨K, hK, hK1, hK2⟩ := stdBitCeil_spec hs1
    have hlo : stdBitCeil R.e.size / 2 = 2 ^ K := by rw [hK, Nat.pow_succ]; omega
    rw [hlo, if_pos (Nat.two_pow_pos K), Nat.log2_two_pow]
    have hmod : l % 2 ^ (K + 1) = l := Nat.mod_eq_of_lt (by omega)
    obtain ⟨v, h1, h2⟩ := epilogue_gsum ok hT (useAligned R.e) l K p (by omega) (by omega)
      (by
        intro h
        obtain ⟨hd, haa⟩ := hpal h
        have key := alignedSeq_desc wf (l := l) (k := K + 1) (fun j hj hb => by
          have := Nat.ge_two_pow_of_testBit hb; omega) haa 0 (Nat.dvd_zero _)
        simpa using key) _ acc1 hx
    rw [bitsDesc_eq l (K + 1) (by omega)] at h2
    refine ⟨v, ys, h1, hys, ?_⟩
    simpa using h2

/-- During constant evaluation the elements are folded from left to right. -/
theorem transformReduce_const (ok : InputsOk R mem) (hce : R.e.constEval = true)
    (has : R.e.pol.assumeMatchingSize = true → R.e.size ∣ R.n) (init : τ) :
    transformReduce R mem init = .ok ((vals R mem 0 (List.replicate R.n 1)).foldl R.rT init) := by
  unfold transformReduce
  by_cases hn0 : R.n = 0
  · simp [hn0]
  have hassume : (R.e.pol.assumeMatchingSize && R.n % R.e.size != 0) = false := by
    cases ha : R.e.pol.assumeMatchingSize
    · rfl
    · simp [Nat.mod_eq_zero_of_dvd (has ha)]
  simp only [hn0, if_false, hassume, Bool.false_eq_true, hce, if_true]
  obtain ⟨st, hw, hst⟩ := whileLoop_inv (fun first1 => decide (first1 < (R.n : Int))) 1
    (fun first1 acc1 => do
        let r ← loadFlag1AndInvoke R mem false 1 first1 first1
        lane0 (vop R [acc1] (r.map R.cvt)))
    (fun i acc => acc = (vals R mem 0 (List.replicate i 1)).foldl R.rT init) (R.n + 1) 0 R.n init rfl
    (by
      intro i acc hi hacc
      subst hacc
      simp only [Nat.zero_add, Nat.mul_one]
      rw [loadFlag1_eq ok false i 1 (by simp) (by omega)]
      obtain ⟨c, hc⟩ := List.length_eq_one_iff.1 (chunkV_length ok i 1 (by omega))
      rw [hc]
      refine ⟨_, rfl, ?_⟩
      rw [vals_replicate_add 0 i 1 1]
      simp [vals_cons, hc])
    (by intro i hi; refine decide_eq_true ?_; omega)
    (by refine decide_eq_false ?_; omega) (by omega)
  simp only [Int.natCast_zero] at hw
  rw [hw, hst]
  rfl

end TransformReduce
end Vir
