import Verif.Lemmas.Overloads
import Verif.Props.Transform

/-!
# C57: the range and `zip_view` overloads of `transform`

`r1` is the first input range, `rs` are the others, `d` is the output range, each with its own length. `tOf e r1 rs d n` are the
arguments of the iterator form with `n` elements.
-/

namespace Vir
open Spec ForEach Transform

variable {α : Type} {e : Env} {r1 d : Rng} {rs : List Rng} {mem : List α}

private theorem run_ranges {n : Nat} (wf : e.WF) (hce : e.constEval = false) (hpt : e.strictPtr = false) (hf : e.Fits n)
    (hr : ReachesAlignment e n) (ha : e.pol.assumeMatchingSize = true → e.size ∣ n)
    (h1 : n ≤ r1.len) (hrs : ∀ r ∈ rs, n ≤ r.len) (hd : n ≤ d.len) (op : VecOp α α) :
    transformG (tOf e r1 rs d n) (chunksR e r1 rs d op) mem = transform (tOf e r1 rs d n) op mem := by
  have hp := (reaches_iff wf).1 hr
  rw [transform_eq_transformG, transformG_trace (t := tOf e r1 rs d n) wf hce hf hp (by simp [tOf, hpt]) ha,
    transformG_trace (t := tOf e r1 rs d n) wf hce hf hp (by simp [tOf, hpt]) ha]
  congr 1
  have hspan : span (groupsOf (tOf e r1 rs d n).e (tOf e r1 rs d n).n) = n := groupsOf_span (show (tOf e r1 rs d n).n = 0 ∨ _ from hp)
  exact runGroups_congr _ _ n 0 _ mem (by omega)
    (fun g q st h => chunksR_eq op h1 hrs hd g q st h)

private theorem short_ranges {n : Nat} (wf : e.WF) (hce : e.constEval = false) (hpt : e.strictPtr = false) (hf : e.Fits n)
    (hr : ReachesAlignment e n) (ha : e.pol.assumeMatchingSize = true → e.size ∣ n) (hn : n ≠ 0) (op : VecOp α α)
    (hs : ∃ r ∈ d :: r1 :: rs, r.len < n) : ∃ u, transformG (tOf e r1 rs d n) (chunksR e r1 rs d op) mem = .ub u := by
  have hp := (reaches_iff wf).1 hr
  rw [transformG_trace (t := tOf e r1 rs d n) wf hce hf hp (by simp [tOf, hpt]) ha]
  have hspan : span (groupsOf (tOf e r1 rs d n).e (tOf e r1 rs d n).n) = n := groupsOf_span (show (tOf e r1 rs d n).n = 0 ∨ _ from hp)
  have hnt := noTrap_runGroups _ (noTrap_chunksR (e := e) (r1 := r1) (rs := rs) (d := d) op) 0
    (groupsOf (tOf e r1 rs d n).e (tOf e r1 rs d n).n) mem
  generalize hx : runGroups (atPos (chunksR e r1 rs d op)) 0 (groupsOf (tOf e r1 rs d n).e (tOf e r1 rs d n).n) mem = x at hnt ⊢
  cases x with
  | ub u => exact ⟨u, rfl⟩
  | trap => exact absurd rfl hnt
  | ok m =>
    exfalso
    have := runGroups_chunksR_ok hx
    rw [hspan] at this
    obtain ⟨r, hr, hl⟩ := hs
    rcases this with h | h
    · exact hn h
    · have := h r hr; omega

/-- **C57 (range overloads).** If the output and the second input are at least as long as the first input, the range form does what the
iterator form does for all elements of the first range; longer ranges are used partially. -/
theorem transformRanges_maps (wf : e.WF) (hce : e.constEval = false) (hpt : e.strictPtr = false) (hf : e.Fits r1.len)
    (hr : ReachesAlignment e r1.len) (ha : e.pol.assumeMatchingSize = true → e.size ∣ r1.len)
    (ok : RangesOk (tOf e r1 rs d r1.len) mem) (hrs : ∀ r ∈ rs, r1.len ≤ r.len) (hd : r1.len ≤ d.len)
    (op : VecOp α α) (g : List α → α) (hg : LaneWise op g) :
    ∃ mem', transformRanges e r1 rs d op mem = .ok ((r1.len : Int), mem') ∧ Mapped (tOf e r1 rs d r1.len) g mem mem' := by
  have := run_ranges (mem := mem) wf hce hpt hf hr ha (Nat.le_refl _) hrs hd op
  obtain ⟨mem', h1, h2⟩ := transform_maps ok wf hce hpt hf hr ha op g hg
  exact ⟨mem', by rw [← this] at h1; exact h1, h2⟩

/-- **C57 (range overloads, exact condition).** The lengths of the other ranges are a precondition that the code does not check: on a
non-empty first range the call is defined exactly if they are at least as long. -/
theorem transformRanges_defined_iff (wf : e.WF) (hce : e.constEval = false) (hpt : e.strictPtr = false) (hf : e.Fits r1.len)
    (hr : ReachesAlignment e r1.len) (ha : e.pol.assumeMatchingSize = true → e.size ∣ r1.len)
    (ok : RangesOk (tOf e r1 rs d r1.len) mem) (hn : r1.len ≠ 0) (op : VecOp α α) :
    (transformRanges e r1 rs d op mem).Defined ↔ r1.len ≤ d.len ∧ ∀ r ∈ rs, r1.len ≤ r.len := by
  constructor
  · intro h
    by_cases hs : ∃ r ∈ d :: r1 :: rs, r.len < r1.len
    · obtain ⟨u, hu⟩ := short_ranges (mem := mem) wf hce hpt hf hr ha hn op hs
      rw [show transformRanges e r1 rs d op mem = _ from hu] at h
      exact absurd h (by simp [Outcome.Defined])
    · have : ∀ r ∈ d :: r1 :: rs, r1.len ≤ r.len := fun r hr => Nat.le_of_not_lt fun h => hs ⟨r, hr, h⟩
      exact ⟨this d (by simp), fun r hr => this r (by simp [hr])⟩
  · rintro ⟨hd, hrs⟩
    have := run_ranges (mem := mem) wf hce hpt hf hr ha (Nat.le_refl _) hrs hd op
    rw [show transformRanges e r1 rs d op mem = _ from this]
    exact (transform_defined_iff ok wf hce hpt hf op).2 hr

/-- The size of a `zip_view` is the size of its shortest range. -/
theorem zipSize_spec (r1 : Rng) (rs : List Rng) :
    (∀ r ∈ r1 :: rs, zipSize r1 rs ≤ r.len) ∧ ∃ r ∈ r1 :: rs, zipSize r1 rs = r.len := by
  have : ∀ (rs : List Rng) (m : Nat), (rs.foldl (fun n r => min n r.len) m ≤ m ∧ ∀ r ∈ rs, rs.foldl (fun n r => min n r.len) m ≤ r.len) ∧
      (rs.foldl (fun n r => min n r.len) m = m ∨ ∃ r ∈ rs, rs.foldl (fun n r => min n r.len) m = r.len) := by
    intro rs
    induction rs with
    | nil => intro m; simp
    | cons r rs ih =>
      intro m
      obtain ⟨⟨h1, h2⟩, h3⟩ := ih (min m r.len)
      simp only [List.foldl_cons]
      refine ⟨⟨by omega, ?_⟩, ?_⟩
      · intro q hq
        rcases List.mem_cons.1 hq with rfl | hq
        · omega
        · exact h2 q hq
      · rcases h3 with h3 | ⟨q, hq, h3⟩
        · rcases Nat.le_total m r.len with h | h
          · left; omega
          · right; exact ⟨r, by simp, by omega⟩
        · right; exact ⟨q, by simp [hq], h3⟩
  obtain ⟨⟨h1, h2⟩, h3⟩ := this rs r1.len
  refine ⟨?_, ?_⟩
  · intro r hr
    rcases List.mem_cons.1 hr with rfl | hr
    · exact h1
    · exact h2 r hr
  · rcases h3 with h3 | ⟨q, hq, h3⟩
    · exact ⟨r1, by simp, h3⟩
    · exact ⟨q, by simp [hq], h3⟩

/-- **C57 (zip).** The `zip_view` form processes as many elements as the shortest input has; no condition on the lengths of the inputs is
needed. -/
theorem transformZip_maps (wf : e.WF) (hce : e.constEval = false) (hpt : e.strictPtr = false) (hf : e.Fits (zipSize r1 rs))
    (hr : ReachesAlignment e (zipSize r1 rs)) (ha : e.pol.assumeMatchingSize = true → e.size ∣ zipSize r1 rs)
    (ok : RangesOk (tOf e r1 rs d (zipSize r1 rs)) mem) (hd : zipSize r1 rs ≤ d.len)
    (op : VecOp α α) (g : List α → α) (hg : LaneWise op g) :
    ∃ mem', transformZip e r1 rs d op mem = .ok ((zipSize r1 rs : Int), mem') ∧ Mapped (tOf e r1 rs d (zipSize r1 rs)) g mem mem' := by
  have hz := (zipSize_spec r1 rs).1
  have := run_ranges (rs := rs) (mem := mem) wf hce hpt hf hr ha (hz r1 (by simp)) (fun r hr => hz r (by simp [hr])) hd op
  obtain ⟨mem', h1, h2⟩ := transform_maps ok wf hce hpt hf hr ha op g hg
  refine ⟨mem', ?_, h2⟩
  unfold transformZip
  simp only [hpt, Bool.false_and, Bool.false_eq_true, if_false]
  rw [← this] at h1
  exact h1

/-- **C57 (zip, exact condition).** On a non-empty `zip_view` the call is defined exactly if the output is long enough. -/
theorem transformZip_defined_iff (wf : e.WF) (hce : e.constEval = false) (hpt : e.strictPtr = false) (hf : e.Fits (zipSize r1 rs))
    (hr : ReachesAlignment e (zipSize r1 rs)) (ha : e.pol.assumeMatchingSize = true → e.size ∣ zipSize r1 rs)
    (ok : RangesOk (tOf e r1 rs d (zipSize r1 rs)) mem) (hn : zipSize r1 rs ≠ 0) (op : VecOp α α) :
    (transformZip e r1 rs d op mem).Defined ↔ zipSize r1 rs ≤ d.len := by
  have hz := (zipSize_spec r1 rs).1
  unfold transformZip
  simp only [hpt, Bool.false_and, Bool.false_eq_true, if_false]
  constructor
  · intro h
    apply Nat.le_of_not_lt
    intro hlt
    obtain ⟨u, hu⟩ := short_ranges (r1 := r1) (rs := rs) (d := d) (mem := mem) wf hce hpt hf hr ha hn op ⟨d, by simp, hlt⟩
    rw [show transformG ⟨e, r1.base :: rs.map Rng.base, d.base, zipSize r1 rs⟩ (chunksR e r1 rs d op) mem = _ from hu] at h
    exact absurd h (by simp [Outcome.Defined])
  · intro hd
    have := run_ranges (rs := rs) (mem := mem) wf hce hpt hf hr ha (hz r1 (by simp)) (fun r hr => hz r (by simp [hr])) hd op
    rw [show transformG ⟨e, r1.base :: rs.map Rng.base, d.base, zipSize r1 rs⟩ (chunksR e r1 rs d op) mem = _ from this]
    exact (transform_defined_iff ok wf hce hpt hf op).2 hr

/-- **C57 (zip, empty).** By the letter of ISO C++ an empty `zip_view` is not allowed, although `transform` of an empty range does
nothing: the overload dereferences `begin`. -/
theorem transformZip_empty (hpt : e.strictPtr = true) (hz : zipSize r1 rs = 0) (op : VecOp α α) :
    transformZip e r1 rs d op mem = .ub .badPointer ∧ transformRanges e ⟨r1.base, 0⟩ rs d op mem = .ok (0, mem) := by
  constructor
  · simp [transformZip, hpt, hz]
  · simp [transformRanges, transformG]

/-! ## Examples -/

def exZip : List Rng := [⟨12, 30⟩, ⟨42, 13⟩]

-- three inputs of 12, 30 and 13 elements, output of 15 elements in place of the first input
example : zipSize ⟨0, 12⟩ exZip = 12 ∧ RangesOk (tOf exampleEnv ⟨0, 12⟩ exZip ⟨0, 15⟩ 12) (List.range 60) ∧
    exampleEnv.WF ∧ exampleEnv.Fits 12 ∧ ReachesAlignment exampleEnv 12 :=
  ⟨by decide, ⟨by decide, by decide, by decide, by decide⟩, exampleEnv_wf, by unfold Env.Fits; decide,
    fun _ _ _ _ => Or.inr ⟨3, by decide, by decide⟩⟩
example : transformZip exampleEnv ⟨0, 12⟩ exZip ⟨0, 15⟩ sumOp (List.range 60) =
    .ok (12, (List.range 12).map (fun i => i + (12 + i) + (42 + i)) ++ (List.range 60).drop 12) := by decide +kernel
-- the binary range overload with a second range that is too short reads past its end
example : transformRanges exampleEnv ⟨0, 12⟩ [⟨12, 10⟩] ⟨0, 15⟩ sumOp (List.range 60) = .ub .oob := by decide +kernel
example : (transformRanges exampleEnv ⟨0, 12⟩ [⟨12, 30⟩] ⟨0, 15⟩ sumOp (List.range 60)).Defined := by
  have : transformRanges exampleEnv ⟨0, 12⟩ [⟨12, 30⟩] ⟨0, 15⟩ sumOp (List.range 60) =
    .ok (12, (List.range 12).map (fun i => i + (12 + i)) ++ (List.range 60).drop 12) := by decide +kernel
  rw [this]; trivial

/-! ## The theorems applied to concrete data -/

private theorem zipHyps : RangesOk (tOf exampleEnv ⟨0, 12⟩ exZip ⟨0, 15⟩ 12) (List.range 60) := ⟨by decide, by decide, by decide, by decide⟩

example := transformZip_maps exampleEnv_wf rfl rfl (by unfold Env.Fits; decide) (fun _ _ _ _ => Or.inr ⟨3, by decide, by decide⟩) (by decide)
  zipHyps (by decide) sumOp _ sumOp_laneWise
example := transformZip_defined_iff exampleEnv_wf rfl rfl (by unfold Env.Fits; decide) (fun _ _ _ _ => Or.inr ⟨3, by decide, by decide⟩) (by decide)
  zipHyps (by decide) sumOp
example := transformZip_empty (e := { exampleEnv with strictPtr := true }) (r1 := ⟨0, 0⟩) (rs := exZip) (d := ⟨0, 15⟩) (mem := List.range 60) rfl (by decide) sumOp
example := transformRanges_maps (r1 := ⟨0, 12⟩) (rs := [⟨12, 30⟩]) (d := ⟨0, 15⟩) (mem := List.range 60) exampleEnv_wf rfl rfl (by unfold Env.Fits; decide)
  (fun _ _ _ _ => Or.inr ⟨3, by decide, by decide⟩) (by decide) ⟨by decide, by decide, by decide, by decide⟩ (by decide) (by decide) sumOp _ sumOp_laneWise
example := transformRanges_defined_iff (r1 := ⟨0, 12⟩) (rs := [⟨12, 10⟩]) (d := ⟨0, 15⟩) (mem := List.range 60) exampleEnv_wf rfl rfl
  (by unfold Env.Fits; decide) (fun _ _ _ _ => Or.inr ⟨3, by decide, by decide⟩) (by decide) ⟨by decide, by decide, by decide, by decide⟩ (by decide) sumOp

end Vir
