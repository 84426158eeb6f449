import Verif.Lemmas.Overlap
import Verif.Lemmas.CallCount
import Verif.Lemmas.ArrayAlgorithms
import Verif.Props.Relations

/-!
# C94: `transform` on ranges that overlap in any way

C10 says that `transform` maps if no input starts before the output and reaches into it. Here inputs may overlap the output in any
way. The result is then what processing the range group by group gives, and it is the one of `std::transform` with a scalar operation
if no input starts less than one group before the output.
-/

namespace Vir
open Spec ForEach Transform

variable {α : Type}

private theorem groupsOf_elems {e : Env} (wf : e.WF) {n : Nat} : ∀ g ∈ groupsOf e n, g.elems ≤ inFlight e := by
  intro g hg
  have hmax : 1 ≤ max 1 e.pol.unrollBy.toNat := Nat.le_max_left ..
  have hsz : e.size ≤ inFlight e := by unfold inFlight; exact Nat.le_mul_of_pos_right _ hmax
  unfold groupsOf at hg
  by_cases hn : n = 0
  · simp [hn] at hg
  simp only [hn, if_false, List.mem_append, List.mem_replicate, chunked, List.mem_map] at hg
  rcases hg with ⟨w, hw, rfl⟩ | ⟨_, rfl⟩ | ⟨_, rfl⟩ | ⟨w, hw, rfl⟩
  · rcases proCount_cases e n with h | ⟨h1, h2, h3⟩
    · rw [h] at hw; simp at hw
    · obtain ⟨K, hK⟩ := proInfo wf h1
      have hlt := hK.tp_lt h2
      rw [← h3] at hlt
      obtain ⟨j, _, _, rfl, hb⟩ := mem_ascBits hw
      have := Nat.ge_two_pow_of_testBit hb
      have := hK.le_size
      simp only [Group.elems]; omega
  · simp only [Group.elems, inFlight]
    exact Nat.mul_le_mul_left _ (Nat.le_max_right ..)
  · simp only [Group.elems]; omega
  · obtain ⟨j, _, rfl, hb⟩ := mem_descBits hw
    have := Nat.ge_two_pow_of_testBit hb
    have := Nat.mod_lt (n - proCount e n) wf.size_pos
    simp only [Group.elems]; omega

private theorem groupWidths_le {e : Env} (wf : e.WF) {n : Nat} : ∀ ws ∈ groupWidths (groupsOf e n), ws.sum ≤ inFlight e := by
  intro ws hw
  simp only [groupWidths, List.mem_map] at hw
  obtain ⟨g, hg, rfl⟩ := hw
  have := groupsOf_elems wf g hg
  simpa [Group.elems, Nat.mul_comm] using this

private theorem transform_trace {t : TEnv} {mem : List α} (ok : RangesInside t mem) (call : CallOk t.e t.n) (op : VecOp α α) :
    transform t op mem = .ok ((t.n : Int), groupwise op t.ins t.out 0 (groupWidths (groupsOf t.e t.n)) mem) := by
  have hp := (reaches_iff call.wf).1 call.reaches
  rw [transform_eq_transformG, transformG_trace call.wf call.run call.fits hp (by simp [call.ptr]) call.matching,
    runGroups_groupwise op ok 0 _ (by rw [groupsOf_span hp]; omega) (groupsOf_aligned call.wf hp)]
  rfl

/-- **C94 (any operation).** However the ranges overlap, `transform` is defined and processes the range in groups of at most
`size * unroll_by` elements, each of which is loaded as the previous groups have left memory. -/
theorem transform_groupwise {t : TEnv} {mem : List α} (ok : RangesInside t mem) (call : CallOk t.e t.n) (op : VecOp α α) :
    ∃ gs : List (List Nat), gs.flatten.sum = t.n ∧ (∀ ws ∈ gs, ws.sum ≤ inFlight t.e) ∧
      transform t op mem = .ok ((t.n : Int), groupwise op t.ins t.out 0 gs mem) := by
  have hp := (reaches_iff call.wf).1 call.reaches
  exact ⟨_, by rw [groupWidths_sum, groupsOf_span hp], groupWidths_le call.wf, transform_trace ok call op⟩

/-- **C94.** If every input starts at or after the output, or at least `size * unroll_by` elements before it, then `transform` with a
lane-wise operation does what `std::transform` does with the scalar operation, element by element. -/
theorem transform_sequential {t : TEnv} {mem : List α} (ok : RangesInside t mem) (call : CallOk t.e t.n)
    (far : ∀ a ∈ t.ins, t.out ≤ a ∨ a + inFlight t.e ≤ t.out) {op : VecOp α α} {g : List α → α} (hg : LaneWise op g) :
    transform t op mem = .ok ((t.n : Int), sequential g t.ins t.out 0 t.n mem) := by
  have hp := (reaches_iff call.wf).1 call.reaches
  have hs : (groupWidths (groupsOf t.e t.n)).flatten.sum = t.n := by rw [groupWidths_sum, groupsOf_span hp]
  rw [transform_trace ok call, groupwise_sequential hg ok 0 _ (by rw [hs]; omega) (fun ws hw a ha => by
    have := groupWidths_le call.wf ws hw
    rcases far a ha with h | h <;> omega), hs]

/-- **C94 (constant evaluation).** There one chunk is loaded at a time, so that a distance of `size` elements suffices. -/
theorem transform_const_sequential {t : TEnv} {mem : List α} (ok : RangesInside t mem) (hs : 0 < t.e.size)
    (hce : t.e.constEval = true) (hpt : t.e.strictPtr = false) (hd : t.e.pol.assumeMatchingSize = true → t.e.size ∣ t.n)
    (far : ∀ a ∈ t.ins, t.out ≤ a ∨ a + t.e.size ≤ t.out) {op : VecOp α α} {g : List α → α} (hg : LaneWise op g) :
    transform t op mem = .ok ((t.n : Int), sequential g t.ins t.out 0 t.n mem) := by
  have hsum : (groupWidths (constGroupsOf t.e t.n)).flatten.sum = t.n := by rw [groupWidths_sum, constGroupsOf_span]
  rw [transform_eq_transformG, transformG_const hs hce (by simp [hpt]) hd,
    runGroups_groupwise op ok 0 _ (by rw [constGroupsOf_span]; omega) (groupsAligned_false (fun g hg => by
      simp only [constGroupsOf, List.mem_append, List.mem_replicate] at hg
      rcases hg with ⟨_, rfl⟩ | ⟨_, rfl⟩ <;> rfl) 0),
    groupwise_sequential hg ok 0 _ (by rw [hsum]; omega) (fun ws hw a ha => by
      simp only [groupWidths, List.mem_map] at hw
      obtain ⟨G, hG, rfl⟩ := hw
      have : (List.replicate G.k G.w).sum ≤ t.e.size := by
        simp only [constGroupsOf, List.mem_append, List.mem_replicate] at hG
        rcases hG with ⟨_, rfl⟩ | ⟨_, rfl⟩ <;> simp <;> omega
      rcases far a ha with h | h <;> omega), hsum]
  rfl

private theorem groupsOf_first {e : Env} (wf : e.WF) {n : Nat} (hs : StartsAligned e) (hn : inFlight e ≤ n) :
    ∃ al rest, groupsOf e n = ⟨e.size, al, max 1 e.pol.unrollBy.toNat⟩ :: rest := by
  have hz := wf.size_pos
  have hpos : 0 < inFlight e := Nat.mul_pos hz (Nat.lt_of_lt_of_le Nat.one_pos (Nat.le_max_left ..))
  unfold groupsOf
  rw [if_neg (by omega), startsAligned_proCount hs]
  simp only [bitsAsc_zero, chunked_nil, List.nil_append, Nat.sub_zero]
  by_cases hu : e.pol.unrollBy > 1
  · have hm : max 1 e.pol.unrollBy.toNat = unroll e := by unfold unroll; omega
    have hq : 0 < unrolledIters e n := by
      unfold unrolledIters
      rw [if_pos hu]
      refine Nat.div_pos ?_ (Nat.mul_pos hz (by unfold unroll; omega))
      rw [← hm]; exact hn
    obtain ⟨q, hq⟩ := Nat.exists_eq_succ_of_ne_zero (Nat.ne_of_gt hq)
    rw [hq, hm, Nat.succ_eq_add_one, List.replicate_succ]
    exact ⟨_, _, rfl⟩
  · have hm : max 1 e.pol.unrollBy.toNat = 1 := by omega
    have hq : unrolledIters e n = 0 := by unfold unrolledIters; rw [if_neg hu]
    rw [inFlight, hm, Nat.mul_one] at hn
    obtain ⟨q, hq2⟩ := Nat.exists_eq_succ_of_ne_zero (Nat.ne_of_gt (Nat.div_pos hn hz))
    rw [hq, hm, Nat.zero_mul, Nat.sub_zero, hq2, Nat.succ_eq_add_one, List.replicate_succ]
    exact ⟨_, _, rfl⟩

/-- **C94 (the distance is needed).** Without alignment prologue, for every smaller distance there are data for which copying the
range differs from what `std::transform` does. -/
theorem transform_not_sequential {e : Env} {n d : Nat} (call : CallOk e n) (hs : StartsAligned e) (hn : inFlight e ≤ n)
    (h0 : 0 < d) (hd : d < inFlight e) {op : VecOp Nat Nat} (hg : LaneWise op List.sum) :
    ∃ mem mem', RangesInside ⟨e, [0], d, n⟩ mem ∧ transform ⟨e, [0], d, n⟩ op mem = .ok ((n : Int), mem') ∧
      mem' ≠ sequential List.sum [0] d 0 n mem := by
  have ok : RangesInside ⟨e, [0], d, n⟩ (List.range (d + n)) := ⟨by simp, by simp, by simp⟩
  refine ⟨List.range (d + n), _, ok, transform_trace ok call op, fun heq => ?_⟩
  have hp := (reaches_iff call.wf).1 call.reaches
  have hsum : (groupWidths (groupsOf e n)).flatten.sum = n := by rw [groupWidths_sum, groupsOf_span hp]
  obtain ⟨al, rest, hr⟩ := groupsOf_first call.wf hs hn
  have h1 : (groupwise op [0] d 0 (groupWidths (groupsOf e n)) (List.range (d + n)))[d + d]? = some d := by
    rw [hr] at hsum ⊢
    have hW : (List.replicate (max 1 e.pol.unrollBy.toNat) e.size).sum = inFlight e := by simp [inFlight, Nat.mul_comm]
    have hc : groupWidths (⟨e.size, al, max 1 e.pol.unrollBy.toNat⟩ :: rest) =
      List.replicate (max 1 e.pol.unrollBy.toNat) e.size :: groupWidths rest := rfl
    rw [hc, List.flatten_cons, List.sum_append_nat, hW] at hsum
    rw [hc, groupwise, hW]
    have hl := outs_length op ok.ins_ne ok.ins_le 0 (List.replicate (max 1 e.pol.unrollBy.toNat) e.size) (by rw [hW]; simp only []; omega)
    rw [hW] at hl
    have hw := writeAt_length (List.range (d + n)) (d + 0)
      (outs op [0] (List.range (d + n)) 0 (List.replicate (max 1 e.pol.unrollBy.toNat) e.size)) (by rw [hl]; simp; omega)
    have := groupwise_get_lt (op := op) (t := ⟨e, [0], d, n⟩) (mem := writeAt (List.range (d + n)) (d + 0)
      (outs op [0] (List.range (d + n)) 0 (List.replicate (max 1 e.pol.unrollBy.toNat) e.size)))
      ⟨ok.ins_ne, by rw [hw]; exact ok.ins_le, by rw [hw]; exact ok.out_le⟩ (0 + inFlight e) (groupWidths rest)
      (by simp only []; omega) (j := d + d) (by simp only []; omega)
    rw [this, writeAt_get _ _ _ (by simp), if_neg (by omega), if_pos (by rw [hl]; omega),
      outs_laneWise hg ok.ins_ne ok.ins_le 0 _ (by rw [hW]; simp only []; omega), hW]
    rw [show d + d - (d + 0) = d by omega, List.getElem?_map, List.getElem?_range hd]
    simp [List.getElem?_range (show d < d + n by omega)]
  have h2 : (sequential List.sum [0] d 0 n (List.range (d + n)))[d + d]? = some 0 := by
    have h3 : (sequential List.sum [0] d 0 d (List.range (d + n)))[d]? = some 0 := by
      rw [sequential_get _ _ _ _ _ _ (by simp; omega) (by simp), if_pos (by omega)]
      simp [List.getElem?_range (show 0 < d + n by omega)]
    rw [show n = d + (1 + (n - d - 1)) by omega, sequential_add, sequential_add, sequential_get_lt _ _ _ _ _ _ (by omega)]
    rw [show d + (1 + (n - d - 1)) = n by omega]
    rw [sequential_get _ _ _ _ _ _ (by rw [sequential_length]; simp; omega) (by simp; omega), if_pos (by omega)]
    simp [h3]
  rw [heq, h2] at h1
  simp at h1
  omega

/-! ### Concrete cases -/

private def plainEnv : Env := { exampleEnv with pol := ⟨[]⟩ }

private theorem plainOk (n : Nat) (h : n ≤ 1000) : CallOk plainEnv n :=
  ⟨libstdcxx_wf _ (by decide) ⟨2, rfl⟩ rfl (by decide) ⟨[], by decide⟩ (by decide), rfl, rfl,
    by unfold Env.Fits; simp [plainEnv, exampleEnv]; omega, fun h => absurd h (by decide), fun h => absurd h (by decide)⟩

-- distance 4 with simds of 4 elements: every element gets the one four places before it, which has been overwritten before
example := transform_sequential (t := ⟨plainEnv, [0], 4, 11⟩) (mem := List.range 15) ⟨by decide, by decide, by decide⟩ (plainOk 11 (by decide))
  (by decide) sumOp_laneWise
example : sequential List.sum [0] 4 0 11 (List.range 15) = [0, 1, 2, 3, 0, 1, 2, 3, 0, 1, 2, 3, 0, 1, 2] := by decide
example := transform_groupwise (t := ⟨plainEnv, [0], 1, 11⟩) (mem := List.range 12) ⟨by decide, by decide, by decide⟩
  (plainOk 11 (by decide)) sumOp
example := transform_const_sequential (t := ⟨{ plainEnv with constEval := true }, [0], 4, 11⟩) (mem := List.range 15)
  ⟨by decide, by decide, by decide⟩ (by decide) rfl rfl (by decide) (by decide) sumOp_laneWise
-- distance 3
example := transform_not_sequential (plainOk 11 (by decide)) (.inr ⟨by decide, by decide⟩) (d := 3) (by decide) (by decide) (by decide)
  sumOp_laneWise

end Vir
