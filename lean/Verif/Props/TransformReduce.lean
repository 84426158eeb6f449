import Verif.Lemmas.TransformReduceOob
import Verif.Props.Platform
import Verif.Props.Transform

/-!
# C14–C17: `vir::transform_reduce`

The input ranges start at the offsets `R.ins` of the arena `mem` and have `R.n` elements each. `R.hredB` and
`R.hredT` are the horizontal reductions of the simd implementation; they are only assumed to be generalized sums
(`HReduce`; the fallback implementation in `simd.h` is one, see `Props/HReduce.lean`).
-/

namespace Vir
open Spec ForEach TransformReduce

variable {α β τ : Type}

/-- The transformed elements: `g` of the elements `i` of all input ranges, for `i = 0, ..., n-1`. -/
def Spec.transformed (R : REnv α β τ) (g : List α → β) (mem : List α) : List β :=
  (List.range R.n).map fun i => g (R.ins.filterMap fun a => mem[a + i]?)

private theorem outs_split {R : REnv α β τ} {mem : List α} (ok : InputsOk R mem) {g : List α → β}
    (hg : LaneWise R.trans g) (a b : List Nat) (h : a.sum + b.sum = R.n) :
    outs R.trans R.ins mem 0 a = (transformed R g mem).take a.sum ∧
      outs R.trans R.ins mem a.sum b = (transformed R g mem).drop a.sum := by
  have h1 := outs_laneWise hg ok.ins_ne ok.ins_le 0 (a ++ b) (by simp; omega)
  rw [List.sum_append, h, outs_append, Nat.zero_add] at h1
  simp only [Nat.zero_add] at h1
  have hl := outs_length R.trans ok.ins_ne ok.ins_le 0 a (by omega)
  unfold transformed
  rw [← h1]
  constructor
  · rw [List.take_left' hl]
  · rw [List.drop_left' hl]

/-- **C14 (exact form).** For every reduction operation `transform_reduce` returns a generalized sum of `init`
and the transformed elements, each used exactly once. If the alignment prologue runs (`p > 0`, only with
`prefer_aligned` or `auto_prologue`) the first `p` elements are combined in groups with the operation on *their own*
type and only the results of the groups are converted to the aggregation type. -/
theorem transformReduce_grouped {R : REnv α β τ} {mem : List α} (ok : InputsOk R mem) (wf : R.e.WF)
    (hce : R.e.constEval = false) (hpt : R.e.strictPtr = false) (hf : R.e.Fits R.n)
    (hr : ReachesAlignment R.e R.n) (he : ¬ EndsAtFirstAligned R.e R.n)
    (ha : R.e.pol.assumeMatchingSize = true → R.e.size ∣ R.n)
    (hT : HReduce R.rT R.hredT) (hB : HReduce R.rB R.hredB) (g : List α → β) (hg : LaneWise R.trans g) (init : τ) :
    ∃ (v : τ) (p : Nat) (ys : List τ), transformReduce R mem init = .ok v ∧ p ≤ R.n ∧
      (R.e.pol.prefersAligned = false → R.e.pol.autoPrologue = false → p = 0) ∧
      Grouped R.rB R.cvt ((transformed R g mem).take p) ys ∧
      GSum R.rT (init :: (ys ++ ((transformed R g mem).drop p).map R.cvt)) v := by
  have hp := (reaches_iff wf).1 hr
  rw [ends_iff wf] at he
  obtain ⟨v, ys, h1, h2, h3⟩ := transformReduce_gsum ok wf hce hf (by omega) (by simp [hpt]) ha hT (fun _ => hB) init
  have hs := widths_sum R.e R.n hp
  obtain ⟨o1, o2⟩ := outs_split ok hg _ _ hs
  refine ⟨v, (proWidths R.e R.n).sum, ys, h1, by omega, ?_, ?_, ?_⟩
  · intro a1 a2
    unfold proWidths
    have : proCount R.e R.n = 0 := by simp [proCount, useAligned, maybeAnyway, a1, a2]
    rw [this]; split <;> simp
  · rw [← o1]; exact h2
  · rw [← o2]; exact h3

/-- **C14.** The generalized sum of `init` and the converted transformed elements, if converting to the
aggregation type commutes with the operation or the policy asks for no alignment prologue. -/
theorem transformReduce_gsum_partial {R : REnv α β τ} {mem : List α} (ok : InputsOk R mem) (wf : R.e.WF)
    (hce : R.e.constEval = false) (hpt : R.e.strictPtr = false) (hf : R.e.Fits R.n)
    (hr : ReachesAlignment R.e R.n) (he : ¬ EndsAtFirstAligned R.e R.n)
    (ha : R.e.pol.assumeMatchingSize = true → R.e.size ∣ R.n)
    (hT : HReduce R.rT R.hredT) (hB : HReduce R.rB R.hredB)
    (hom : (∀ a b, R.cvt (R.rB a b) = R.rT (R.cvt a) (R.cvt b)) ∨
      (R.e.pol.prefersAligned = false ∧ R.e.pol.autoPrologue = false))
    (g : List α → β) (hg : LaneWise R.trans g) (init : τ) :
    ∃ v, transformReduce R mem init = .ok v ∧ GSum R.rT (init :: (transformed R g mem).map R.cvt) v := by
  obtain ⟨v, p, ys, h1, _, h3, h4, h5⟩ := transformReduce_grouped ok wf hce hpt hf hr he ha hT hB g hg init
  refine ⟨v, h1, ?_⟩
  rcases hom with hom | ⟨a1, a2⟩
  · have := h4.subst hom (pre := [init]) (post := ((transformed R g mem).drop p).map R.cvt) (v := v) (by simpa using h5)
    rw [← List.map_append, List.take_append_drop] at this
    simpa using this
  · have hp := h3 a1 a2
    subst hp
    obtain ⟨ps, bs, e1, e2, e3⟩ := h4
    have : ys = [] := by
      cases e2 with
      | nil => simpa using e3
      | @cons x b xs bs hx hxs =>
        have := hx.ne_nil
        simp only [List.take_zero, List.flatten_cons, List.append_eq_nil_iff] at e1
        exact absurd e1.1 this
    subst this
    simpa using h5

/-- **C14.** If the transformed elements have the aggregation type, `transform_reduce` returns a generalized sum
of `init` and the transformed elements, for every operation. -/
theorem transformReduce_is_gsum {R : REnv α τ τ} {mem : List α} (hr1 : R.rB = R.rT) (hr2 : R.cvt = id)
    (ok : InputsOk R mem) (wf : R.e.WF)
    (hce : R.e.constEval = false) (hpt : R.e.strictPtr = false) (hf : R.e.Fits R.n)
    (hr : ReachesAlignment R.e R.n) (he : ¬ EndsAtFirstAligned R.e R.n)
    (ha : R.e.pol.assumeMatchingSize = true → R.e.size ∣ R.n)
    (hT : HReduce R.rT R.hredT) (hB : HReduce R.rT R.hredB) (g : List α → τ) (hg : LaneWise R.trans g) (init : τ) :
    ∃ v, transformReduce R mem init = .ok v ∧ GSum R.rT (init :: transformed R g mem) v := by
  have := transformReduce_gsum_partial ok wf hce hpt hf hr he ha hT (hr1 ▸ hB)
    (Or.inl (by intro a b; rw [hr1, hr2]; rfl)) g hg init
  rw [hr2] at this
  simpa using this

/-- **C15.** For an associative and commutative operation `transform_reduce` returns the left fold. -/
theorem transformReduce_eq_fold {R : REnv α τ τ} {mem : List α} (hr1 : R.rB = R.rT) (hr2 : R.cvt = id)
    (hassoc : ∀ a b c, R.rT (R.rT a b) c = R.rT a (R.rT b c)) (hcomm : ∀ a b, R.rT a b = R.rT b a)
    (ok : InputsOk R mem) (wf : R.e.WF)
    (hce : R.e.constEval = false) (hpt : R.e.strictPtr = false) (hf : R.e.Fits R.n)
    (hr : ReachesAlignment R.e R.n) (he : ¬ EndsAtFirstAligned R.e R.n)
    (ha : R.e.pol.assumeMatchingSize = true → R.e.size ∣ R.n)
    (hT : HReduce R.rT R.hredT) (hB : HReduce R.rT R.hredB) (g : List α → τ) (hg : LaneWise R.trans g) (init : τ) :
    transformReduce R mem init = .ok ((transformed R g mem).foldl R.rT init) := by
  obtain ⟨v, h1, h2⟩ := transformReduce_is_gsum hr1 hr2 ok wf hce hpt hf hr he ha hT hB g hg init
  rw [h1, h2.eq_foldl hassoc hcomm]

/-- **C15 (mixed types).** The same if the operation on the aggregation type is associative and commutative and
converting to it commutes with the operation. -/
theorem transformReduce_eq_fold_mixed {R : REnv α β τ} {mem : List α}
    (hom : ∀ a b, R.cvt (R.rB a b) = R.rT (R.cvt a) (R.cvt b))
    (hassoc : ∀ a b c, R.rT (R.rT a b) c = R.rT a (R.rT b c)) (hcomm : ∀ a b, R.rT a b = R.rT b a)
    (ok : InputsOk R mem) (wf : R.e.WF)
    (hce : R.e.constEval = false) (hpt : R.e.strictPtr = false) (hf : R.e.Fits R.n)
    (hr : ReachesAlignment R.e R.n) (he : ¬ EndsAtFirstAligned R.e R.n)
    (ha : R.e.pol.assumeMatchingSize = true → R.e.size ∣ R.n)
    (hT : HReduce R.rT R.hredT) (hB : HReduce R.rB R.hredB) (g : List α → β) (hg : LaneWise R.trans g) (init : τ) :
    transformReduce R mem init = .ok (((transformed R g mem).map R.cvt).foldl R.rT init) := by
  obtain ⟨v, h1, h2⟩ := transformReduce_gsum_partial ok wf hce hpt hf hr he ha hT hB (Or.inl hom) g hg init
  rw [h1, h2.eq_foldl hassoc hcomm]

/-- **C14, C15 (constant evaluation).** During constant evaluation the result is the left fold for *every*
operation, policy (except a violated `assume_matching_size`) and address. -/
theorem transformReduce_const_fold {R : REnv α β τ} {mem : List α} (ok : InputsOk R mem)
    (hce : R.e.constEval = true) (ha : R.e.pol.assumeMatchingSize = true → R.e.size ∣ R.n)
    (g : List α → β) (hg : LaneWise R.trans g) (init : τ) :
    transformReduce R mem init = .ok (((transformed R g mem).map R.cvt).foldl R.rT init) := by
  rw [transformReduce_const ok hce ha init]
  have := (outs_split ok hg [] (List.replicate R.n 1) (by simp)).2
  simp only [List.sum_nil, List.drop_zero] at this
  rw [vals, this]

/-- With `assume_matching_size` a size that is no multiple of the width traps. -/
theorem transformReduce_assume_traps {R : REnv α β τ} (ha : R.e.pol.assumeMatchingSize = true)
    (hn : ¬ R.e.size ∣ R.n) (mem : List α) (init : τ) : transformReduce R mem init = .trap := by
  have h0 : R.n ≠ 0 := by intro h; rw [h] at hn; exact hn (Nat.dvd_zero _)
  have h1 : R.n % R.e.size ≠ 0 := fun h => hn (Nat.dvd_of_mod_eq_zero h)
  simp [transformReduce, h0, ha, h1]

/-- **C16 (exact condition).** On valid ranges `transform_reduce` has undefined behaviour exactly if the range
ends before its first aligned position (`prefer_aligned`), or exactly at it (`prefer_aligned` and `auto_prologue`):
then the prologue consumes the whole range and the epilogue executes `unreachable()`. -/
theorem transformReduce_defined_iff {R : REnv α β τ} {mem : List α} (ok : InputsOk R mem) (wf : R.e.WF)
    (hce : R.e.constEval = false) (hpt : R.e.strictPtr = false) (hf : R.e.Fits R.n)
    (hT : HReduce R.rT R.hredT) (hB : HReduce R.rB R.hredB) (init : τ) :
    (transformReduce R mem init).Defined ↔ ReachesAlignment R.e R.n ∧ ¬ EndsAtFirstAligned R.e R.n := by
  constructor
  · intro hd
    constructor
    · rw [reaches_iff wf]
      by_cases hu : useAligned R.e = true
      · by_cases hm : misalignedBytes R.e = 0
        · right; simp [proCount, hu, hm]
        · by_cases hn : R.n = 0
          · exact Or.inl hn
          · right
            have : proCount R.e R.n = toProcess R.e := by simp [proCount, hu, hm]
            rw [this]
            apply Nat.le_of_not_lt
            intro hlt
            obtain ⟨r, hr⟩ := transformReduce_ub_of_short (mem := mem) wf hce hu hm hn hlt init
            rw [hr] at hd
            exact hd
      · have : ReachesAlignment R.e R.n := by
          intro ha hb hc hd
          exfalso; apply hu
          simp only [useAligned, ha, Bool.true_and]
          exact (prologuePossible_iff R.e).2 ⟨hb, hc, hd⟩
        exact (reaches_iff wf).1 this
    · rw [ends_iff wf]
      rintro ⟨hn, hp⟩
      rw [transformReduce_ub_of_whole ok wf hce hf hpt hn hp init] at hd
      exact hd
  · rintro ⟨hr, he⟩
    by_cases ha : R.e.pol.assumeMatchingSize = true ∧ ¬ R.e.size ∣ R.n
    · rw [transformReduce_assume_traps ha.1 ha.2]; trivial
    · have hp := (reaches_iff wf).1 hr
      rw [ends_iff wf] at he
      obtain ⟨v, _, h1, _⟩ := transformReduce_gsum ok wf hce hf (by omega) (by simp [hpt])
        (fun h => Classical.byContradiction fun h' => ha ⟨h, h'⟩) hT (fun _ => hB) init
      rw [h1]; trivial

/-- **C16 (no alignment requested).** All other policies are safe on all valid ranges. -/
theorem transformReduce_safe {R : REnv α β τ} {mem : List α} (ok : InputsOk R mem) (wf : R.e.WF)
    (hce : R.e.constEval = false) (hpt : R.e.strictPtr = false) (hf : R.e.Fits R.n)
    (hp1 : R.e.pol.prefersAligned = false) (hp2 : R.e.pol.autoPrologue = false)
    (hT : HReduce R.rT R.hredT) (hB : HReduce R.rB R.hredB) (init : τ) :
    (transformReduce R mem init).Defined :=
  (transformReduce_defined_iff ok wf hce hpt hf hT hB init).2
    ⟨fun h => by rw [hp1] at h; simp at h, fun h => by
      rcases h.1 with h | h
      · rw [hp1] at h; simp at h
      · rw [hp2] at h; simp at h⟩

/-- **C17.** For every unroll factor (the number of accumulators) and every operation, associative or not, the tree
reduction leaves in accumulator 0 a combination that uses every accumulator exactly once. -/
theorem tree_reduction {γ : Type} (r : γ → γ → γ) (acc : List γ) (h0 : acc ≠ []) :
    ∃ a, (treeReduce r acc.length acc)[0]? = some a ∧ GSum r acc a := by
  obtain ⟨a, rest, h1, h2⟩ := treeReduce_gsum r acc h0
  exact ⟨a, by simp [h1], h2⟩

/-! ### the theorems are about something, and their conditions are needed -/

/-- Sum of one or two arrays of `Nat`s. -/
def exampleR (pol : List PolicyOption) (ins : List Nat) (n : Nat) : REnv Nat Nat Nat where
  e := { exampleEnv with pol := ⟨pol⟩ }
  ins := ins
  n := n
  trans := sumOp
  rB := (· + ·)
  rT := (· + ·)
  cvt := id
  hredB := List.sum
  hredT := List.sum

theorem hreduce_sum : HReduce (· + ·) (List.sum : List Nat → Nat) := by
  intro v hv
  induction v with
  | nil => exact absurd rfl hv
  | cons x xs ih =>
    cases xs with
    | nil => simpa using GSum.single x
    | cons y ys => exact GSum.node (GSum.single x) (ih (by simp))

theorem exampleR_wf (pol : List PolicyOption) (ins : List Nat) (n : Nat)
    (h : (⟨pol⟩ : Policy).Reachable) : (exampleR pol ins n).e.WF :=
  libstdcxx_wf _ (show 0 < 4 by decide) ⟨2, rfl⟩ rfl (show 4 ∣ 0x1004 by decide) h
    (show stdBitCeil (4 * 4) ≤ 4000 by decide)

-- the hypotheses are met, with a prologue of three elements
example : ∃ v, transformReduce (exampleR [.preferAligned] [1, 12] 11) (List.range 23) 100 = .ok v ∧
    GSum (· + ·) (100 :: transformed (exampleR [.preferAligned] [1, 12] 11) List.sum (List.range 23)) v := by
  have wf := exampleR_wf [.preferAligned] [1, 12] 11 ⟨[.preferAligned], by decide⟩
  refine transformReduce_is_gsum rfl rfl ⟨by decide, by decide⟩ wf rfl rfl (show 11 * 4 < 2 ^ 64 by decide) ?_ ?_ (by decide)
    hreduce_sum hreduce_sum _ sumOp_laneWise 100
  · rw [reaches_iff wf]; decide
  · rw [ends_iff wf]; decide
example : transformReduce (exampleR [.preferAligned] [1, 12] 11) (List.range 23) 100 = .ok 353 := by decide +kernel
example : transformReduce (exampleR [.unrollBy 2] [0] 23) (List.range 23) 0 = .ok 253 := by decide +kernel
example : transformReduce (exampleR [.unrollBy 3] [0] 40) (List.range 40) 0 = .ok 780 := by decide +kernel

/-- **C16 (false as stated).** `prefer_aligned` and `auto_prologue` each have a valid range, with nothing wrong
about it, for which `transform_reduce` executes `unreachable()`. -/
theorem transformReduce_reaches_unreachable (pol : PolicyOption) (hp : pol = .preferAligned ∨ pol = .autoPrologue) :
    ∃ (R : REnv Nat Nat Nat) (mem : List Nat), InputsOk R mem ∧ R.e.WF ∧ R.e.pol = ⟨[pol]⟩ ∧
      transformReduce R mem 0 = .ub .unreachable := by
  rcases hp with rfl | rfl
  · exact ⟨exampleR [.preferAligned] [0] 3, [1, 2, 3], ⟨by decide, by decide⟩,
      exampleR_wf _ _ _ ⟨[.preferAligned], by decide⟩, rfl, by decide +kernel⟩
  · exact ⟨exampleR [.autoPrologue] [0] 3, [1, 2, 3], ⟨by decide, by decide⟩,
      exampleR_wf _ _ _ ⟨[.autoPrologue], by decide⟩, rfl, by decide +kernel⟩

/-- Sum of bytes into a wider type: the lanes of the transformed elements are added modulo 256. Such a call compiles only if
`transform_op` converts for single elements and returns bytes for wider arguments (C78, `transformReduce_mixed`). -/
def byteR (pol : List PolicyOption) (n : Nat) : REnv Nat Nat Nat where
  e := { exampleEnv with pol := ⟨pol⟩ }
  ins := [0]
  n := n
  trans := sumOp
  rB := fun a b => (a + b) % 256
  rT := (· + ·)
  cvt := id
  hredB := fun v => v.sum % 256
  hredT := List.sum

/-- **C14, C15 (the restriction on mixed types is needed).** Summing bytes into a wider type gives the sum
without `prefer_aligned` and something else with it: the prologue adds bytes to bytes. -/
theorem transformReduce_prologue_narrow :
    transformReduce (byteR [] 8) (List.replicate 8 200) 0 = .ok 1600 ∧
    transformReduce (byteR [.preferAligned] 8) (List.replicate 8 200) 0 = .ok 1344 := by
  constructor <;> decide +kernel

/-! ## The theorems applied to concrete data -/

private theorem exWf : (exampleR [.preferAligned] [1, 12] 11).e.WF := exampleR_wf [.preferAligned] [1, 12] 11 ⟨[.preferAligned], by decide⟩
private theorem exOk : InputsOk (exampleR [.preferAligned] [1, 12] 11) (List.range 23) := ⟨by decide, by decide⟩
private theorem exReach : ReachesAlignment (exampleR [.preferAligned] [1, 12] 11).e 11 := (reaches_iff exWf).2 (by decide)
private theorem exEnds : ¬ EndsAtFirstAligned (exampleR [.preferAligned] [1, 12] 11).e 11 := fun h => absurd ((ends_iff exWf).1 h) (by decide)
private theorem exFits : (exampleR [.preferAligned] [1, 12] 11).e.Fits 11 := by unfold Env.Fits; decide

example := transformReduce_gsum_partial exOk exWf rfl rfl exFits exReach exEnds (by decide) hreduce_sum hreduce_sum (.inl fun _ _ => rfl) _ sumOp_laneWise 100
example := transformReduce_eq_fold rfl rfl Nat.add_assoc Nat.add_comm exOk exWf rfl rfl exFits exReach exEnds (by decide) hreduce_sum hreduce_sum _ sumOp_laneWise 100
example := transformReduce_eq_fold_mixed (fun _ _ => rfl) Nat.add_assoc Nat.add_comm exOk exWf rfl rfl exFits exReach exEnds (by decide) hreduce_sum hreduce_sum _
  sumOp_laneWise 100
example := transformReduce_const_fold
  (R := { exampleR [.preferAligned] [1, 12] 11 with e := { (exampleR [.preferAligned] [1, 12] 11).e with constEval := true } }) (mem := List.range 23)
  ⟨by decide, by decide⟩ rfl (by decide) _ sumOp_laneWise 100
example := transformReduce_assume_traps (R := exampleR [.assumeMatchingSize] [1, 12] 11) rfl (by decide) (List.range 23) 100
example := transformReduce_defined_iff exOk exWf rfl rfl exFits hreduce_sum hreduce_sum 100
example := transformReduce_safe (R := exampleR [.unrollBy 2] [1, 12] 11) (mem := List.range 23) ⟨by decide, by decide⟩
  (exampleR_wf [.unrollBy 2] [1, 12] 11 ⟨[.unrollBy 2], by decide⟩) rfl rfl (by unfold Env.Fits; decide) rfl rfl hreduce_sum hreduce_sum 100
example := tree_reduction (fun a b : Nat => a - b) [9, 4, 2, 1, 7] (by simp)
example := transformReduce_reaches_unreachable .autoPrologue (.inr rfl)

end Vir
