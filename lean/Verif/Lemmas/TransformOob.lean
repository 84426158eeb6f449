import Verif.Lemmas.TransformMain

namespace Vir
open Spec ForEach

variable {α : Type}

namespace Transform

/-- The outcome is undefined unless `b ≤ N`. -/
def OkLe {S : Type} (N b : Nat) (r : Outcome S) : Prop := r ≠ .trap ∧ ∀ st, r = .ok st → b ≤ N

theorem OkLe.of_ub {S : Type} (N b : Nat) (r : UB) : OkLe N b (Outcome.ub r : Outcome S) := ⟨by simp, by simp⟩

theorem OkLe.bind {S S' : Type} {N b c : Nat} {r : Outcome S} {g : S → Outcome S'} (h : OkLe N b r)
    (hg : ∀ st, b ≤ N → OkLe N c (g st)) : OkLe N c (r >>= g) := by
  cases r with
  | ub u => exact OkLe.of_ub _ _ _
  | trap => exact absurd rfl h.1
  | ok st => exact hg st (h.2 st rfl)

theorem OkLe.ok_iff {S : Type} {N b : Nat} (h : b ≤ N) (st : S) : OkLe N b (.ok st) := ⟨by simp, fun _ _ => h⟩

theorem okLe_loadIns (t : TEnv) (mem : List α) (w : Nat) (pos : Int) (bs : List Nat) :
    OkLe 0 0 (loadIns t mem w pos bs) := by
  induction bs with
  | nil => exact OkLe.ok_iff (Nat.le_refl _) _
  | cons b bs ih =>
    simp only [loadIns]
    refine OkLe.bind (b := 0) ?_ (fun c _ => OkLe.bind ih fun cs _ => OkLe.ok_iff (Nat.le_refl _) _)
    unfold loadIn
    split
    · exact OkLe.ok_iff (Nat.le_refl _) _
    · exact OkLe.of_ub _ _ _

theorem okLe_chunk (t : TEnv) (op : VecOp α α) (aligned : Bool) (w p d : Nat) (p2 : Int) (mem : List α) :
    OkLe t.n (d + w) (chunk t op aligned w (p : Int) (d : Int) p2 mem) := by
  unfold chunk
  refine OkLe.bind (b := 0) ?_ ?_
  · unfold loadAndInvoke
    cases t.ins with
    | nil => exact OkLe.of_ub _ _ _
    | cons b bs =>
      simp only
      refine OkLe.bind (b := 0) ?_ (fun c _ => ?_)
      · unfold loadIn
        split
        · exact OkLe.ok_iff (by omega) _
        · exact OkLe.of_ub _ _ _
      · refine OkLe.bind (b := 0) ?_ (fun cs _ => OkLe.ok_iff (by omega) _)
        have := okLe_loadIns t mem w p2 bs
        exact ⟨this.1, fun _ _ => by omega⟩
  · intro v _
    unfold storeOut
    by_cases hr : inRange t.n (d : Int) w = true
    · have : d + w ≤ t.n := by simp only [inRange, decide_eq_true_eq] at hr; omega
      repeat' split
      all_goals first | exact OkLe.of_ub _ _ _ | exact OkLe.ok_iff this _
    · simp [hr, OkLe]

theorem okLe_prologue_aux (t : TEnv) (op : VecOp α α) (K tp k m : Nat) (hK : 1 < K)
    (h0 : tp ≠ 0) (ht : tp < 2 ^ K) (hk : k + m = K) (hm : 0 < m) (mem : List α) (hN : tp % 2 ^ k ≤ t.n) :
    OkLe t.n tp (prologueRec t op (2 ^ K) tp k ((tp % 2 ^ k : Nat) : Int) ((tp % 2 ^ k : Nat) : Int) mem) := by
  induction m generalizing k mem with
  | zero => omega
  | succ m ih =>
    have hmax : (2 : Nat) ^ 1 < 2 ^ K := Nat.pow_lt_pow_right (by omega) hK
    have hlt : 2 ^ k < 2 ^ K := Nat.pow_lt_pow_right (by omega) (by omega)
    unfold prologueRec
    rw [if_neg (by simp [hasSingleBit_two_pow, hlt]; omega), if_neg (by omega)]
    have hne2 : ¬ 2 ^ K = 2 := by omega
    have hmod := mod_two_pow_succ' tp k
    have cont : ∀ mem' : List α, tp % 2 ^ (k + 1) ≤ t.n →
        OkLe t.n tp (if _h : 2 ^ k * 2 < 2 ^ K then
            prologueRec t op (2 ^ K) tp (k + 1) ((tp % 2 ^ (k + 1) : Nat) : Int) ((tp % 2 ^ (k + 1) : Nat) : Int) mem'
          else Outcome.ok mem') := by
      intro mem' h2
      by_cases hmz : m = 0
      · subst hmz
        have hkK : k + 1 = K := by omega
        rw [dif_neg (by rw [← Nat.pow_succ, show k.succ = K from hkK]; omega)]
        rw [hkK, Nat.mod_eq_of_lt ht] at h2
        exact OkLe.ok_iff h2 _
      · have h3 : 2 ^ (k + 1) < 2 ^ K := Nat.pow_lt_pow_right (by omega) (by omega)
        rw [dif_pos (by rw [Nat.pow_succ] at h3; exact h3)]
        exact ih (k + 1) (by omega) (by omega) mem' h2
    by_cases hb : tp.testBit k = true
    · have hne : (2 ^ k &&& tp) ≠ 0 := (two_pow_and_ne_zero k tp).2 hb
      simp only [hb, if_true] at hmod
      rw [if_pos (Or.inr hne)]
      refine OkLe.bind (okLe_chunk t op true (2 ^ k) _ _ _ mem) ?_
      intro mem' hle
      have hcast : ((tp % 2 ^ k : Nat) : Int) + ((2 ^ k : Nat) : Int) = ((tp % 2 ^ (k + 1) : Nat) : Int) := by
        rw [hmod]; simp
      simp only [hne2, if_false, Outcome.bind_ok, hcast]
      exact cont mem' (by rw [hmod]; exact hle)
    · have hne : ¬ (2 ^ k &&& tp) ≠ 0 := fun h => hb ((two_pow_and_ne_zero k tp).1 h)
      simp only [hb, if_false, Bool.false_eq_true, Nat.add_zero] at hmod
      rw [if_neg (by rintro (h | h); exact hne2 h; exact hne h)]
      simp only [Outcome.bind_ok]
      have := cont mem (by rw [hmod]; exact hN)
      rw [hmod] at this
      exact this

theorem okLe_prologue (t : TEnv) (op : VecOp α α) (K tp : Nat) (hK : 0 < K) (h0 : tp ≠ 0) (ht : tp < 2 ^ K)
    (mem : List α) : OkLe t.n tp (prologueRec t op (2 ^ K) tp 0 0 0 mem) := by
  by_cases hK1 : K = 1
  · subst hK1
    obtain rfl : tp = 1 := by simp at ht; omega
    unfold prologueRec
    rw [if_neg (by decide), if_neg (by decide), if_pos (Or.inl (by decide))]
    have := okLe_chunk t op true 1 0 0 0 mem
    refine OkLe.bind (b := 1) (by simpa using this) ?_
    intro mem' h
    rw [if_pos (by decide)]
    simp only [Outcome.bind_ok]
    rw [dif_neg (by decide)]
    exact OkLe.ok_iff h _
  · have := okLe_prologue_aux t op K tp 0 K (by omega) h0 ht (by omega) hK mem (by simp [Nat.mod_one])
    simpa [Nat.mod_one] using this

/-- `prefer_aligned` on a range that ends before the first aligned position. -/
theorem transform_ub_of_short {t : TEnv} (wf : t.e.WF) (hce : t.e.constEval = false) (hu : useAligned t.e = true)
    (hm : misalignedBytes t.e ≠ 0) (hn : t.n ≠ 0) (hlt : t.n < toProcess t.e) (op : VecOp α α) (mem : List α) :
    ∃ r, transform t op mem = .ub r := by
  have hpp : prologuePossible t.e = true := by
    simp only [useAligned, Bool.and_eq_true] at hu; exact hu.2
  have ha : t.e.pol.assumeMatchingSize = false := by
    cases h : t.e.pol.assumeMatchingSize
    · rfl
    · have := proCount_assume wf t.n h
      simp only [useAligned, Bool.and_eq_true] at hu
      have := (wf.pol_reachable.inv.pa hu.1).2; rw [h] at this; simp at this
  obtain ⟨K, hK⟩ := proInfo wf hpp
  have hpos := hK.tp_pos hm
  have h := okLe_prologue t op K (toProcess t.e) hK.K_pos (by omega) (hK.tp_lt hm) mem
  have h' : ∃ r, prologueRec t op (maxMisalignment t.e) (toProcess t.e) 0 0 0 mem = .ub r := by
    rw [hK.max]
    cases hr : prologueRec t op (2 ^ K) (toProcess t.e) 0 0 0 mem with
    | ub r => exact ⟨r, rfl⟩
    | trap => exact absurd hr h.1
    | ok m => have := h.2 m hr; omega
  obtain ⟨r, hr⟩ := h'
  refine ⟨r, ?_⟩
  unfold transform
  simp only [hn, if_false, ha, Bool.false_and, Bool.false_eq_true, hce]
  rw [runPrologue_short hu hm _ mem r hr]
  rfl

end Transform
end Vir
