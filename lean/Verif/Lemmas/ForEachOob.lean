import Verif.Lemmas.ForEachMain

namespace Vir
open Spec ForEach

variable {σ α : Type}

/-- The outcome is undefined unless `b ≤ N`; if it is a value then the range keeps its length `N`. -/
def OkLe (N b : Nat) (r : Outcome (St σ α)) : Prop :=
  r ≠ .trap ∧ ∀ st, r = .ok st → st.2.length = N ∧ b ≤ N

theorem OkLe.of_ub (N b : Nat) (r : UB) : OkLe N b (Outcome.ub r : Outcome (St σ α)) :=
  ⟨by simp, by simp⟩

theorem OkLe.bind {N b c : Nat} {r : Outcome (St σ α)} {g : St σ α → Outcome (St σ α)} (h : OkLe N b r)
    (hg : ∀ st, st.2.length = N → b ≤ N → OkLe N c (g st)) : OkLe N c (r >>= g) := by
  cases r with
  | ub u => exact OkLe.of_ub _ _ _
  | trap => exact absurd rfl h.1
  | ok st => exact hg st (h.2 st rfl).1 (h.2 st rfl).2

theorem store_ok_length {e : Env} {mem v mem' : List α} {aligned : Bool} {w : Nat} {pos : Int}
    (hv : v.length = w) (h : store e mem aligned w pos v = .ok mem') : mem'.length = mem.length := by
  unfold store at h
  by_cases hr : inRange mem.length pos w = true
  · simp only [hr, Bool.not_true, Bool.false_eq_true, if_false] at h
    simp only [inRange, decide_eq_true_eq] at hr
    split at h
    · simp at h
    · simp only [Outcome.ok.injEq] at h
      subst h
      simp; omega
  · simp [hr] at h

theorem okLe_single (e : Env) (wb : Bool) (f : Callable σ α) (w : Nat) (aligned : Bool) (p : Nat) (st : St σ α)
    (N : Nat) (h : st.2.length = N) : OkLe N (p + w) (loadAndInvoke e wb f w aligned 1 (p : Int) st) := by
  unfold loadAndInvoke loadAll
  by_cases hr : inRange st.2.length (p : Int) w = true
  · have hb : p + w ≤ N := by
      simp only [inRange, decide_eq_true_eq] at hr; omega
    unfold load
    simp only [hr, Bool.not_true, Bool.false_eq_true, if_false]
    by_cases ha : (aligned && !alignedAt e (p : Int) w) = true
    · rw [if_pos ha]; exact OkLe.of_ub _ _ _
    · rw [if_neg ha]
      simp only [Outcome.bind_ok, loadAll]
      cases wb with
      | false =>
        simp only [Bool.false_eq_true, if_false]
        refine ⟨by simp, ?_⟩
        intro st' h'
        simp only [Outcome.ok.injEq] at h'
        subst h'
        exact ⟨h, hb⟩
      | true =>
        simp only [if_true]
        have hsh := f.shape st.1 [List.take w (List.drop (Int.toNat (p : Int)) st.2)]
        generalize hc : (f.call st.1 [List.take w (List.drop (Int.toNat (p : Int)) st.2)]) = c at hsh ⊢
        obtain ⟨s', outs⟩ := c
        have : ∃ o, outs = [o] ∧ o.length = w := by
          simp only [List.map_cons, List.map_nil, List.map_eq_cons_iff, List.map_eq_nil_iff] at hsh
          obtain ⟨o, l, rfl, ho, rfl⟩ := hsh
          exact ⟨o, rfl, by rw [ho]; simp; omega⟩
        obtain ⟨o, rfl, ho⟩ := this
        simp only [storeAll]
        cases hs : store e st.2 aligned w (p : Int) o with
        | ub u => exact OkLe.of_ub _ _ _
        | trap =>
          unfold store at hs
          repeat' split at hs
          all_goals simp at hs
        | ok m =>
          simp only [Outcome.bind_ok]
          refine ⟨by simp, ?_⟩
          intro st' h'
          simp only [Outcome.ok.injEq] at h'
          subst h'
          exact ⟨by rw [← h]; exact store_ok_length ho hs, hb⟩
  · unfold load
    simp [hr, OkLe]

theorem okLe_jumpFrom (e : Env) (wb : Bool) (f : Callable σ α) (table : List (Nat × Nat)) (bound : Nat)
    (aligned : Bool) (fuel n N p : Nat) (ws : List Nat) (hws : tableWidths table fuel n = some ws)
    (st : St σ α) (h : st.2.length = N) (hp : p ≤ N) :
    OkLe N (p + ws.sum) (jumpFrom e wb f table bound aligned fuel n (p : Int) st) := by
  induction fuel generalizing n p ws st with
  | zero => simp [tableWidths] at hws
  | succ fuel ih =>
    simp only [tableWidths] at hws
    simp only [jumpFrom]
    by_cases hn : n = 0
    · simp only [hn, if_true, Option.some.injEq] at hws
      subst hws
      simp only [hn, if_true]
      refine ⟨by simp, ?_⟩
      intro st' h'
      simp only [Outcome.ok.injEq] at h'
      subst h'
      exact ⟨h, by simpa using hp⟩
    · simp only [hn, if_false] at hws ⊢
      cases hl : table.lookup n with
      | none => simp [hl] at hws
      | some m =>
        simp only [hl] at hws ⊢
        by_cases hm : m < n
        · simp only [hm, if_true, Option.map_eq_some_iff] at hws
          obtain ⟨ws', hws', rfl⟩ := hws
          by_cases hb : n ≥ bound
          · rw [if_pos hb]; exact OkLe.of_ub _ _ _
          · rw [if_neg hb]
            refine OkLe.bind (okLe_single e wb f (n - m) aligned p st N h) ?_
            intro st1 h1 hb1
            have := ih m (p + (n - m)) ws' hws' st1 h1 hb1
            simpa [Nat.add_assoc] using this
        · simp [hm] at hws

theorem okLe_prologueRec_aux (e : Env) (wb : Bool) (f : Callable σ α) (K tp k m N : Nat)
    (hK : 1 < K) (h0 : tp ≠ 0) (ht : tp < 2 ^ K) (hk : k + m = K) (hm : 0 < m) (hkk : 0 < k ∨
      (!e.optSize && decide (2 ^ k = 1 ∧ 2 ^ K < 64) && !e.constEval) = false)
    (st : St σ α) (hst : st.2.length = N) (hN : tp % 2 ^ k ≤ N) :
    OkLe N tp (prologueRec e wb f (2 ^ K) tp k ((tp % 2 ^ k : Nat) : Int) st) := by
  induction m generalizing k st with
  | zero => omega
  | succ m ih =>
    have hmax : (2 : Nat) ^ 1 < 2 ^ K := Nat.pow_lt_pow_right (by omega) hK
    have hjt : (!e.optSize && decide (2 ^ k = 1 ∧ 2 ^ K < 64) && !e.constEval) = false := by
      rcases hkk with h | h
      · have : (2 : Nat) ^ 0 < 2 ^ k := Nat.pow_lt_pow_right (by omega) h
        have : decide (2 ^ k = 1 ∧ 2 ^ K < 64) = false := by
          rw [decide_eq_false_iff_not]; omega
        rw [this]; simp
      · exact h
    unfold prologueRec
    rw [if_neg (by simp [hasSingleBit_two_pow]; omega), if_neg (by omega), if_neg (by omega), hjt]
    simp only [Bool.false_eq_true, if_false]
    have hmod := mod_two_pow_succ' tp k
    have cont : ∀ st' : St σ α, st'.2.length = N → tp % 2 ^ (k + 1) ≤ N →
        OkLe N tp (if _h : 2 ^ k * 2 < 2 ^ K then
            prologueRec e wb f (2 ^ K) tp (k + 1) ((tp % 2 ^ (k + 1) : Nat) : Int) st'
          else Outcome.ok st') := by
      intro st' h1 h2
      by_cases hmz : m = 0
      · subst hmz
        have hkK : k + 1 = K := by omega
        rw [dif_neg (by rw [← Nat.pow_succ, show k.succ = K from hkK]; omega)]
        refine ⟨by simp, ?_⟩
        intro st'' h''
        simp only [Outcome.ok.injEq] at h''
        subst h''
        rw [hkK, Nat.mod_eq_of_lt ht] at h2
        exact ⟨h1, h2⟩
      · have h2' : 2 ^ (k + 1) < 2 ^ K := Nat.pow_lt_pow_right (by omega) (by omega)
        rw [dif_pos (by rw [Nat.pow_succ] at h2'; exact h2')]
        exact ih (k + 1) (by omega) (by omega) (Or.inl (by omega)) st' h1 h2
    by_cases hb : tp.testBit k = true
    · rw [if_pos ((two_pow_and_ne_zero k tp).2 hb)]
      have hcast : ((tp % 2 ^ k : Nat) : Int) + ((2 ^ k : Nat) : Int) = ((tp % 2 ^ (k + 1) : Nat) : Int) := by
        rw [hmod]; simp [hb]
      refine OkLe.bind (okLe_single e wb f (2 ^ k) true (tp % 2 ^ k) st N hst) ?_
      intro st1 h1 h2
      simp only [Outcome.bind_ok, hcast]
      exact cont st1 h1 (by rw [hmod]; simpa [hb] using h2)
    · rw [if_neg (fun h => hb ((two_pow_and_ne_zero k tp).1 h))]
      simp only [Outcome.bind_ok]
      have := cont st hst (by rw [hmod]; simpa [hb] using hN)
      rw [hmod] at this
      simpa [hb] using this

theorem okLe_prologueRec (e : Env) (wb : Bool) (f : Callable σ α) (K tp N : Nat)
    (hK : 0 < K) (h0 : tp ≠ 0) (ht : tp < 2 ^ K) (st : St σ α) (hst : st.2.length = N) :
    OkLe N tp (prologueRec e wb f (2 ^ K) tp 0 0 st) := by
  by_cases hK1 : K = 1
  · subst hK1
    obtain rfl : tp = 1 := by simp at ht; omega
    unfold prologueRec
    rw [if_neg (by decide), if_neg (by decide), if_pos (by decide)]
    simpa using okLe_single e wb f 1 true 0 st N hst
  · by_cases hj : (!e.optSize && decide (2 ^ 0 = 1 ∧ 2 ^ K < 64) && !e.constEval) = true
    · have hmax : (2 : Nat) ^ 1 < 2 ^ K := Nat.pow_lt_pow_right (by omega) (by omega)
      unfold prologueRec
      rw [if_neg (by simp [hasSingleBit_two_pow]; omega), if_neg (by omega), if_neg (by omega), hj]
      simp only [if_true]
      have h64 : 2 ^ K < 2 ^ 6 := by simp at hj; omega
      have hK6 : K < 6 := (Nat.pow_lt_pow_iff_right (by omega)).1 h64
      have h32 : tp < 32 := Nat.lt_of_lt_of_le ht (show 2 ^ K ≤ 2 ^ 5 from Nat.pow_le_pow_right (by omega) (by omega))
      unfold jumpTable
      split
      · exact OkLe.of_ub _ _ _
      · have := okLe_jumpFrom e wb f prologueTable (2 ^ K) true (tp + 1) tp N 0 _ (prologueTable_asc' h32) st hst
          (by omega)
        rw [bitsAsc_sum] at this
        simpa using this
    · have := okLe_prologueRec_aux e wb f K tp 0 K N (by omega) h0 ht (by omega) hK
        (Or.inr (by simpa using hj)) st hst (by simp [Nat.mod_one])
      simpa [Nat.mod_one] using this

/-- A prologue that does not fit makes `for_each` undefined. -/
theorem forEach_ub_of_short {e : Env} (wf : e.WF) (hce : e.constEval = false) {n : Nat}
    (hu : useAligned e = true) (hm : misalignedBytes e ≠ 0) (hn : n ≠ 0) (hlt : n < toProcess e)
    (wb : Bool) (f : Callable σ α) (s : σ) (xs : List α) (hx : xs.length = n) :
    ∃ r, forEach e wb f s xs = .ub r := by
  have hpp : prologuePossible e = true := by
    simp only [useAligned, Bool.and_eq_true] at hu; exact hu.2
  obtain ⟨K, hK⟩ := proInfo wf hpp
  have ha : e.pol.assumeMatchingSize = false := by
    simp only [useAligned, Bool.and_eq_true] at hu
    exact (wf.pol_reachable.inv.pa hu.1).2
  have h1 := okLe_prologueRec e wb f K (toProcess e) n hK.K_pos (by have := hK.tp_pos hm; omega) (hK.tp_lt hm)
    (s, xs) hx
  unfold forEach
  simp only [hx, hn, if_false, ha, Bool.false_and, Bool.false_eq_true, hce]
  unfold runPrologue
  simp only [hu, Bool.true_or, if_true, hm, if_false, hK.max]
  cases hr : prologueRec e wb f (2 ^ K) (toProcess e) 0 0 (s, xs) with
  | ub r => exact ⟨r, rfl⟩
  | trap => exact absurd hr h1.1
  | ok st =>
    have := (h1.2 st hr).2
    omega

end Vir
