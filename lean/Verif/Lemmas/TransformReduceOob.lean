import Verif.Lemmas.TransformReduceMain
import Verif.Lemmas.TransformOob
import Verif.Lemmas.Logged

namespace Vir
open Spec ForEach

namespace Spec

/-- The range ends exactly at its first aligned position (and the policy asks for a prologue that makes the
accesses aligned). -/
def EndsAtFirstAligned (e : Env) (n : Nat) : Prop :=
  (e.pol.prefersAligned = true ∨ e.pol.autoPrologue = true) ∧
  1 < e.size ∧ e.al e.size ∣ e.size * e.sz ∧ e.sz < e.al e.size ∧
  n ≠ 0 ∧ e.al e.size ∣ e.addr + n * e.sz ∧ ∀ k, k < n → ¬ e.al e.size ∣ e.addr + k * e.sz

end Spec

theorem toProcess_least {e : Env} (wf : e.WF) {K : Nat} (hK : ProInfo e K) (hm : misalignedBytes e ≠ 0)
    {k : Nat} (hd : e.al e.size ∣ e.addr + k * e.sz) : toProcess e ≤ k := by
  have hsz := wf.sz_pos
  apply Nat.le_of_not_lt
  intro hlt
  have htp := hK.tp_lt hm
  have hd2 : e.al e.size ∣ (toProcess e - k) * e.sz := by
    have h5 := hK.tp_al
    have : e.addr + toProcess e * e.sz = (e.addr + k * e.sz) + (toProcess e - k) * e.sz := by
      rw [Nat.add_assoc, ← Nat.add_mul]; congr 2; omega
    rw [this] at h5
    exact (Nat.dvd_add_right hd).1 h5
  rw [hK.al] at hd2
  have hd3 := Nat.dvd_of_mul_dvd_mul_right hsz hd2
  have hle := Nat.le_of_dvd (by omega) hd3
  omega

theorem ends_iff {e : Env} (wf : e.WF) {n : Nat} :
    EndsAtFirstAligned e n ↔ (n ≠ 0 ∧ proCount e n = n) := by
  constructor
  · rintro ⟨hpol, h1, h2, h3, hn, hd, hno⟩
    refine ⟨hn, ?_⟩
    have hpp := (prologuePossible_iff e).2 ⟨h1, h2, h3⟩
    obtain ⟨K, hK⟩ := proInfo wf hpp
    have hm : misalignedBytes e ≠ 0 := by
      intro hm
      apply hno 0 (by omega)
      unfold misalignedBytes at hm
      simpa using Nat.dvd_of_mod_eq_zero hm
    have htp : toProcess e = n := by
      apply Nat.le_antisymm (toProcess_least wf hK hm hd)
      apply Nat.le_of_not_lt
      intro hlt
      exact hno _ hlt hK.tp_al
    have hc : (useAligned e || maybeAnyway e) = true := by
      simp only [useAligned, maybeAnyway, hpp, Bool.and_true, Bool.or_eq_true]; exact hpol
    unfold proCount
    rw [if_pos hc, if_neg hm, htp, Nat.and_self]
    simp
  · rintro ⟨hn, hp⟩
    rcases proCount_cases e n with h | ⟨hpp, hm, htp⟩
    · omega
    · obtain ⟨h1, h2, h3⟩ := (prologuePossible_iff e).1 hpp
      obtain ⟨K, hK⟩ := proInfo wf hpp
      have htn : toProcess e = n := by omega
      refine ⟨?_, h1, h2, h3, hn, by rw [← htn]; exact hK.tp_al, ?_⟩
      · have : (useAligned e || maybeAnyway e) = true := by
          cases h : (useAligned e || maybeAnyway e)
          · unfold proCount at hp; rw [h] at hp; simp at hp; omega
          · rfl
        simpa [useAligned, maybeAnyway, hpp] using this
      · intro k hk hd
        have := toProcess_least wf hK hm hd
        omega

namespace TransformReduce
open Transform (okLe_loadIns)

variable {α β τ : Type} {R : REnv α β τ} {mem : List α}

theorem okLe_load (aligned : Bool) (w p : Nat) :
    Transform.OkLe R.n (p + w) (loadFlag1AndInvoke R mem aligned w (p : Int) (p : Int)) := by
  unfold loadFlag1AndInvoke
  cases R.ins with
  | nil => exact Transform.OkLe.of_ub _ _ _
  | cons b bs =>
    simp only
    refine Transform.OkLe.bind (b := p + w) ?_ (fun c hc => ?_)
    · unfold loadFlag1
      split
      · exact Transform.OkLe.of_ub _ _ _
      · unfold Transform.loadIn
        split
        · rename_i h
          refine Transform.OkLe.ok_iff ?_ _
          simp only [inRange, Bool.and_eq_true, decide_eq_true_eq] at h
          have := h.1.2
          have hn : (REnv.t R).n = R.n := rfl
          omega
        · exact Transform.OkLe.of_ub _ _ _
    · refine Transform.OkLe.bind (b := 0) ?_ (fun cs _ => Transform.OkLe.ok_iff hc _)
      have := okLe_loadIns (REnv.t R) mem w p bs
      exact ⟨this.1, fun _ _ => by omega⟩

theorem okLe_prologue (K tp k m : Nat) (ht : tp < 2 ^ K) (hk : k + m = K + 1) (hm : 0 < m) (acc1 : τ)
    (hN : tp % 2 ^ k ≤ R.n) : Transform.OkLe R.n tp (prologueRec R mem (2 ^ K) tp k acc1) := by
  induction m generalizing k acc1 with
  | zero => omega
  | succ m ih =>
    unfold prologueRec
    rw [if_neg (by simp [hasSingleBit_two_pow])]
    have hmod := mod_two_pow_succ' tp k
    have cont : ∀ acc', tp % 2 ^ (k + 1) ≤ R.n →
        Transform.OkLe R.n tp (if _h : 2 ^ k < 2 ^ K then prologueRec R mem (2 ^ K) tp (k + 1) acc' else Outcome.ok acc') := by
      intro acc' hle
      by_cases hmz : m = 0
      · subst hmz
        have hkK : k = K := by omega
        rw [dif_neg (by rw [hkK]; omega)]
        refine Transform.OkLe.ok_iff ?_ _
        rw [hkK, Nat.mod_eq_of_lt (by rw [Nat.pow_succ]; omega)] at hle
        exact hle
      · have h2 : 2 ^ k < 2 ^ K := Nat.pow_lt_pow_right (by omega) (by omega)
        rw [dif_pos h2]
        exact ih (k + 1) (by omega) (by omega) acc' hle
    by_cases hb : tp.testBit k = true
    · simp only [hb, if_true] at hmod
      rw [if_pos ((and_two_pow_ne_zero k tp).2 hb)]
      simp only [Nat.and_two_pow_sub_one_eq_mod]
      have hl := okLe_load (R := R) (mem := mem) true (2 ^ k) (tp % 2 ^ k)
      cases hr : loadFlag1AndInvoke R mem true (2 ^ k) ((tp % 2 ^ k : Nat) : Int) ((tp % 2 ^ k : Nat) : Int) with
      | ub u => exact Transform.OkLe.of_ub _ _ _
      | trap => exact absurd hr hl.1
      | ok v =>
        have := hl.2 v hr
        exact cont _ (by omega)
    · have hb' : tp.testBit k = false := by simpa using hb
      simp only [hb', Bool.false_eq_true, if_false, Nat.add_zero] at hmod
      rw [if_neg (fun h => hb ((and_two_pow_ne_zero k tp).1 h))]
      exact cont _ (by omega)

theorem prologue_ok (ok : InputsOk R mem) (K tp k m : Nat) (ht : tp < 2 ^ K)
    (hk : k + m = K + 1) (hm : 0 < m) (hal : AlignedSeq R.e (tp % 2 ^ k) (ascBits tp k m)) (hN : tp ≤ R.n)
    (acc1 : τ) : ∃ v, prologueRec R mem (2 ^ K) tp k acc1 = .ok v := by
  induction m generalizing k acc1 with
  | zero => omega
  | succ m ih =>
    unfold prologueRec
    rw [if_neg (by simp [hasSingleBit_two_pow])]
    have hmod := mod_two_pow_succ' tp k
    have hsum := ascBits_sum tp k (m + 1)
    have htK : tp % 2 ^ (k + (m + 1)) = tp := by
      rw [hk]; exact Nat.mod_eq_of_lt (Nat.lt_trans ht (Nat.pow_lt_pow_right (by omega) (by omega)))
    rw [htK] at hsum
    simp only [ascBits, List.sum_append] at hsum
    simp only [ascBits] at hal
    have cont : ∀ acc', ∃ v,
        (if _h : 2 ^ k < 2 ^ K then prologueRec R mem (2 ^ K) tp (k + 1) acc' else Outcome.ok acc') = .ok v := by
      intro acc'
      by_cases hmz : m = 0
      · subst hmz
        have hkK : k = K := by omega
        rw [dif_neg (by rw [hkK]; omega)]
        exact ⟨acc', rfl⟩
      · have h2 : 2 ^ k < 2 ^ K := Nat.pow_lt_pow_right (by omega) (by omega)
        rw [dif_pos h2]
        refine ih (k + 1) (by omega) (by omega) ?_ acc'
        rw [alignedSeq_append] at hal
        have := hal.2
        rw [hmod]
        cases hb : tp.testBit k
        · simpa [hb] using this
        · simpa [hb] using this
    by_cases hb : tp.testBit k = true
    · simp only [hb, if_true] at hal hmod hsum
      rw [if_pos ((and_two_pow_ne_zero k tp).2 hb)]
      simp only [List.cons_append, List.nil_append, AlignedSeq] at hal
      simp only [List.sum_cons, List.sum_nil] at hsum
      simp only [Nat.and_two_pow_sub_one_eq_mod]
      rw [loadFlag1_eq ok true (tp % 2 ^ k) (2 ^ k) (fun _ => hal.1) (by omega)]
      exact cont _
    · rw [if_neg (fun h => hb ((and_two_pow_ne_zero k tp).1 h))]
      exact cont _

theorem epilogue_zero (aligned : Bool) (k : Nat) (acc1 : τ) (p1 p2 : Int) :
    epilogue R mem aligned 0 k acc1 p1 p2 = .ub .unreachable := by
  cases k <;> simp [epilogue]

/-- `prefer_aligned` on a range that ends before the first aligned position. -/
theorem transformReduce_ub_of_short (wf : R.e.WF) (hce : R.e.constEval = false) (hu : useAligned R.e = true)
    (hm : misalignedBytes R.e ≠ 0) (hn : R.n ≠ 0) (hlt : R.n < toProcess R.e) (init : τ) :
    ∃ r, transformReduce R mem init = .ub r := by
  have hpp : prologuePossible R.e = true := by
    simp only [useAligned, Bool.and_eq_true] at hu; exact hu.2
  have ha : R.e.pol.assumeMatchingSize = false := by
    cases h : R.e.pol.assumeMatchingSize
    · rfl
    · simp only [useAligned, Bool.and_eq_true] at hu
      have := (wf.pol_reachable.inv.pa hu.1).2; rw [h] at this; simp at this
  obtain ⟨K, hK⟩ := proInfo wf hpp
  have h := okLe_prologue (R := R) (mem := mem) K (toProcess R.e) 0 (K + 1) (hK.tp_lt hm) (by omega) (by omega) init
    (by simp [Nat.mod_one])
  have h' : ∃ r, prologueRec R mem (maxMisalignment R.e) (toProcess R.e) 0 init = .ub r := by
    rw [hK.max]
    cases hr : prologueRec R mem (2 ^ K) (toProcess R.e) 0 init with
    | ub r => exact ⟨r, rfl⟩
    | trap => exact absurd hr h.1
    | ok m => have := h.2 m hr; omega
  obtain ⟨r, hr⟩ := h'
  refine ⟨r, ?_⟩
  unfold transformReduce
  simp only [hn, if_false, ha, Bool.false_and, Bool.false_eq_true, hce]
  rw [runPrologue_short hu hm _ init r hr]
  rfl

/-- A prologue that consumes the whole range leads to `unreachable()` in the epilogue. -/
theorem transformReduce_ub_of_whole (ok : InputsOk R mem) (wf : R.e.WF) (hce : R.e.constEval = false)
    (hf : R.e.Fits R.n) (hpt : R.e.strictPtr = false) (hn : R.n ≠ 0) (hp : proCount R.e R.n = R.n) (init : τ) :
    transformReduce R mem init = .ub .unreachable := by
  have ha : R.e.pol.assumeMatchingSize = false := by
    cases h : R.e.pol.assumeMatchingSize
    · rfl
    · have := proCount_assume wf R.n h; omega
  have hs1 : 1 < R.e.size := by
    rcases proCount_cases R.e R.n with h | ⟨hpp, _, _⟩
    · omega
    · exact ((prologuePossible_iff _).1 hpp).1
  obtain ⟨acc1, ph1, _⟩ := runPrologue_ex wf hf (Nat.le_of_eq hp)
    (fun max tp acc1 => prologueRec R mem max tp 0 acc1) init (fun _ => True)
    (by
      intro h0 K hK ht haa
      have hs := alignedSeq_asc wf haa 0 K (by simpa using hK.le_size) (by simpa using ht)
      have hb1 := bitsAsc_eq (proCount R.e R.n) (K + 1) (by rw [Nat.pow_succ]; omega)
      rw [bitsAsc_eq _ _ ht] at hs
      obtain ⟨v, hv⟩ := prologue_ok ok K _ 0 (K + 1) ht (by omega) (by omega)
        (by simpa [Nat.mod_one, hb1] using hs) (Nat.le_of_eq hp) init
      exact ⟨v, hv, trivial⟩)
    (fun _ => trivial)
  unfold transformReduce
  simp only [hn, if_false, ha, Bool.false_and, Bool.false_eq_true, hce]
  rw [ph1, hp]
  simp only [Outcome.bind_ok, subPtr, hpt, Bool.false_and, Bool.false_eq_true, if_false, Bool.false_or, Nat.sub_self,
    Nat.zero_mod]
  rw [if_neg (by rw [decide_eq_true_eq]; omega)]
  obtain ⟨K, hK, hK1, hK2⟩ := stdBitCeil_spec hs1
  have hlo : stdBitCeil R.e.size / 2 = 2 ^ K := by rw [hK, Nat.pow_succ]; omega
  rw [hlo, if_pos (Nat.two_pow_pos K), epilogue_zero]

end TransformReduce
end Vir
