import Verif.Lemmas.CountIf
import Verif.Lemmas.SimdReduce
import Verif.Props.ForEach

/-! # C19: `vir::count_if` -/

namespace Vir
open Vir.Spec Vir.CountIf Vir.ForEach

variable {α : Type}

/-- The horizontal sum of `w` lanes is correct: some order and grouping of the lanes. -/
def Spec.SumsLanes (w : Nat) (hred : List (Outcome Int) → Outcome Int) : Prop :=
  ∀ v : List (Outcome Int), v.length = w → GSum addO v (hred v)

/-- The horizontal sum of the fallback `simd` is such a sum. -/
theorem fallbackSum_sumsLanes {w : Nat} (h0 : 0 < w) (h64 : w < 2 ^ 64) : SumsLanes w fallbackSum := by
  intro v hv
  obtain ⟨x, hx, hg⟩ := Simd.reduceV_gsum (vop := fun l r => .ok (List.zipWith addO l r)) (op := addO)
    (fun _ _ _ => rfl) v (by intro h; rw [h] at hv; simp at hv; omega) (by omega)
  rw [fallbackSum, hx, Outcome.bind_ok]
  exact hg

/-- **C19 (arbitrary predicate).** The predicate is applied to consecutive pieces that make up the range, and the result is
the number of `true` lanes it returned, if that is representable in `int`; otherwise a counter overflows. -/
theorem countIf_pieces {e : Env} (wf : e.WF) (hce : e.constEval = false) (hpt : e.strictPtr = false) (ps : Bool)
    {hred : List (Outcome Int) → Outcome Int} (hh : SumsLanes e.size hred) (p : Pred α) (xs : List α)
    (hf : e.Fits xs.length) (hr : ReachesAlignment e xs.length)
    (ha : e.pol.assumeMatchingSize = true → e.size ∣ xs.length) :
    ∃ pieces : List (List α), pieces.flatten = xs ∧
      countIf e ps hred p xs =
        if (pieces.map fun x => (p.call x).count true).sum < 2 ^ 31
        then .ok ((pieces.map fun x => (p.call x).count true).sum : Nat) else .ub .overflow := by
  have hp := (reaches_iff wf).1 hr
  have hst : e.strictPtr = true → xs.length = 0 ∨
      (e.size ≤ xs.length ∧ (1 < e.pol.unrollBy → e.size * unroll e ≤ xs.length)) := by simp [hpt]
  have hel := elems_callsOf wf.size_pos hp
  refine ⟨allChunks (callsOf e xs.length) xs, by rw [allChunks_flatten, hel, List.take_length], ?_⟩
  have hJ := J_run (ps := ps) p _ (callsOf_ok wf.size_pos hce xs.length) _ _ xs (Nat.le_of_eq hel) (J_init e.size)
  rw [Nat.zero_add] at hJ
  rw [countIf, forEach_eq_run wf hce hf hp hst ha false _ _ xs rfl]
  exact final_sum hh hJ

/-- **C19.** For a predicate that tests each element on its own, `count_if` returns the number of elements satisfying it
if that number is representable in `int`; otherwise a counter overflows. -/
theorem countIf_spec {e : Env} (wf : e.WF) (hce : e.constEval = false) (hpt : e.strictPtr = false) (ps : Bool)
    {hred : List (Outcome Int) → Outcome Int} (hh : SumsLanes e.size hred) (p : Pred α) (q : α → Bool)
    (hq : ∀ x, p.call x = x.map q) (xs : List α) (hf : e.Fits xs.length) (hr : ReachesAlignment e xs.length)
    (ha : e.pol.assumeMatchingSize = true → e.size ∣ xs.length) :
    countIf e ps hred p xs = if xs.countP q < 2 ^ 31 then .ok (xs.countP q : Int) else .ub .overflow := by
  obtain ⟨pieces, h1, h2⟩ := countIf_pieces wf hce hpt ps hh p xs hf hr ha
  rw [h2, count_laneWise hq, h1]

/-- **C19 (constant evaluation).** The same during constant evaluation, except for the width and lengths for which
`for_each` itself is wrong (C09). -/
theorem countIf_const_partial {e : Env} (hs : 0 < e.size) (hce : e.constEval = true) (hpt : e.strictPtr = false) (ps : Bool)
    {hred : List (Outcome Int) → Outcome Int} (hh : SumsLanes e.size hred) (p : Pred α) (q : α → Bool)
    (hq : ∀ x, p.call x = x.map q) (xs : List α) (h2 : xs.length = 0 ∨ e.size ≠ 2 ∨ xs.length % 2 = 1)
    (ha : e.pol.assumeMatchingSize = true → e.size ∣ xs.length) :
    countIf e ps hred p xs = if xs.countP q < 2 ^ 31 then .ok (xs.countP q : Int) else .ub .overflow := by
  have hel := elems_constCallsOf e xs.length
  have hJ := J_run (ps := ps) p _ (constCallsOf_ok hs xs.length) _ _ xs (Nat.le_of_eq hel) (J_init e.size)
  rw [Nat.zero_add, count_laneWise hq, allChunks_flatten, hel, List.take_length] at hJ
  rw [countIf, constForEach_eq_run hs hce (by simp [hpt]) h2 ha false _ _ xs rfl]
  exact final_sum hh hJ

/-- **C19 (constant evaluation, the excluded case).** With width 2 and a non-empty range of even length the last element is
counted twice. -/
theorem countIf_const_width2 {e : Env} (h2 : e.size = 2) (hce : e.constEval = true) (hpt : e.strictPtr = false) (ps : Bool)
    {hred : List (Outcome Int) → Outcome Int} (hh : SumsLanes e.size hred) (p : Pred α) (q : α → Bool)
    (hq : ∀ x, p.call x = x.map q) (xs : List α) (hn : xs.length ≠ 0) (hev : xs.length % 2 = 0) :
    ∃ last, xs = xs.dropLast ++ [last] ∧ countIf e ps hred p xs =
      if (xs ++ [last]).countP q < 2 ^ 31 then .ok ((xs ++ [last]).countP q : Int) else .ub .overflow := by
  obtain ⟨last, hl, h⟩ := constForEach_width2 h2 hce hpt hn hev (callable e ps p) (.ok (0, List.replicate e.size 0)) xs rfl
  refine ⟨last, hl, ?_⟩
  have hel : elems (List.replicate (xs.length / 2) (⟨2, 1⟩ : Call)) = xs.length := by
    simp [Call.elems]; omega
  have hJ := J_run (e := e) (ps := ps) p (List.replicate (xs.length / 2) ⟨2, 1⟩)
    (fun c hc => by rw [(List.mem_replicate.1 hc).2]; exact ⟨by simp, Or.inl rfl⟩) _ _ xs (Nat.le_of_eq hel) (J_init e.size)
  rw [Nat.zero_add, count_laneWise hq, allChunks_flatten, hel, List.take_length] at hJ
  have hJ' := J_call (e := e) (ps := ps) p [[last]] _ _ (Or.inl ⟨[last], rfl, by simp⟩) hJ
  rw [count_laneWise hq] at hJ'
  rw [countIf, h, List.countP_append]
  exact final_sum hh hJ'

/-- A concrete instance: two elements, three counted. -/
theorem countIf_const_wrong : ∃ e : Env, e.WF ∧ e.constEval = true ∧
    countIf e true fallbackSum (⟨fun x => x.map (· < 10), by simp⟩ : Pred Nat) [1, 2] = .ok 3 ∧
    countIf e false fallbackSum (⟨fun x => x.map (· < 10), by simp⟩ : Pred Nat) [1, 2] = .ok 3 := by
  refine ⟨{ exampleEnv with size := 2, pol := ⟨[.size 2]⟩, constEval := true }, ?_, rfl, ?_, ?_⟩
  · exact libstdcxx_wf _ (by decide) ⟨2, rfl⟩ rfl (by decide) ⟨[.preferSize 2], by decide⟩ (by decide)
  · decide +kernel
  · decide +kernel

-- the hypotheses are met: prologue, unrolled loop, loop and no overflow
example : countIf exampleEnv true fallbackSum (⟨fun x => x.map (· % 3 == 0), by simp⟩ : Pred Nat) (List.range 23) = .ok 8 :=
  (countIf_spec exampleEnv_wf rfl rfl true (fallbackSum_sumsLanes (by decide) (by decide)) _ (· % 3 == 0) (fun _ => rfl)
    (List.range 23) (by unfold Env.Fits; decide) (fun _ _ _ _ => Or.inr ⟨3, by decide, by decide⟩)
    (by intro h; revert h; decide)).trans (by decide +kernel)
-- computed from the model, without the theorem
example : countIf exampleEnv true fallbackSum (⟨fun x => x.map (· % 3 == 0), by simp⟩ : Pred Nat) (List.range 23) = .ok 8 := by
  decide +kernel

/-! ## The theorems applied to concrete data -/

private def thirds : Pred Nat := ⟨fun x => x.map (· % 3 == 0), by simp⟩

example := countIf_pieces exampleEnv_wf rfl rfl true (fallbackSum_sumsLanes (by decide) (by decide)) thirds
  (List.range 23) (by unfold Env.Fits; decide) (fun _ _ _ _ => Or.inr ⟨3, by decide, by decide⟩) (by intro h; revert h; decide)
example := countIf_const_partial (e := { exampleEnv with constEval := true }) (by decide) rfl rfl true
  (fallbackSum_sumsLanes (w := 4) (by decide) (by decide)) thirds (· % 3 == 0) (fun _ => rfl) (List.range 23) (by decide) (by decide)
example := countIf_const_width2 (e := { exampleEnv with constEval := true, size := 2 }) rfl rfl rfl true
  (fallbackSum_sumsLanes (w := 2) (by decide) (by decide)) thirds (· % 3 == 0) (fun _ => rfl) (List.range 22) (by decide) (by decide)

end Vir
