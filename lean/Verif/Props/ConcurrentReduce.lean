import Verif.Lemmas.ConcurrentReduce
import Verif.Props.Concurrent
import Verif.Props.TransformReduce

/-!
# C86: reducing while other threads write elsewhere
-/

namespace Vir.Threads
open Spec TransformReduce

variable {α β τ : Type}

/-- `a` is an element of an input range of the reduction. -/
def ReduceReads (R : REnv α β τ) (a : Nat) : Prop := ∃ b ∈ R.ins, b ≤ a ∧ a < b + R.n

/-- **C86 (`transform_reduce`, in general).** Whatever happens to memory between its accesses, as long as the elements of its input ranges
stay as they are, `transform_reduce` does what it does alone: the same result, the same undefined behaviour. -/
theorem transformReduce_stable {R : REnv α β τ} {mem : List α} (hl : ∀ b ∈ R.ins, b + R.n ≤ mem.length) {mems : Nat → List α}
    (h : ∀ k a, ReduceReads R a → (mems k)[a]? = mem[a]?) (init : τ) :
    ∃ k, transformReduceTimed (REnv.t R) (pureOps R.trans R.rT R.cvt R.hredB R.hredT) mems init 0 =
      (transformReduce R mem init >>= fun v => .ok (k, some v)) :=
  transformReduceTimed_eq hl (fun b hb k i h1 h2 => h k i ⟨b, hb, h1, h2⟩) init 0

/-- **C86 (`transform_reduce`, accesses).** However the elements of the input ranges change meanwhile, under the preconditions of C14
`transform_reduce` terminates, does nothing undefined and reads as many elements as there are in all input ranges together. -/
theorem transformReduce_accesses {R : REnv α β τ} {mems : Nat → List α} (ne : R.ins ≠ []) (hl : ∀ b ∈ R.ins, ∀ k, b + R.n ≤ (mems k).length)
    (wf : R.e.WF) (hce : R.e.constEval = false) (hpt : R.e.strictPtr = false) (hf : R.e.Fits R.n)
    (hr : ReachesAlignment R.e R.n) (he : ¬ EndsAtFirstAligned R.e R.n)
    (ha : R.e.pol.assumeMatchingSize = true → R.e.size ∣ R.n) (init : τ) (k : Nat) :
    ∃ v, transformReduceTimed (REnv.t R) (pureOps R.trans R.rT R.cvt R.hredB R.hredT) mems init k = .ok (k + R.n * R.ins.length, some v) := by
  have hp := (reaches_iff wf).1 hr
  rw [ends_iff wf] at he
  have h := transformReduceE_tri (t := REnv.t R) (timed_prims ne hl k) wf hce hpt hf (by show R.n = 0 ∨ _; simp only [REnv.t]; omega) ha 0 init
  rcases h k (by simp) with ⟨s', v, h1, h2, -⟩ | ⟨_, _, h⟩ | ⟨_, _, h⟩
  · subst h2; exact ⟨v, h1⟩
  · exact h.elim
  · exact h.elim

variable {ι : Type} [DecidableEq ι]

/-- **C86 (`transform_reduce`).** A call of `transform_reduce` runs concurrently with calls of `for_each` and `transform` that do not write to
its input ranges. `sched k` are the steps that the other threads have made before the `k`-th access. Whatever they are, nothing undefined
happens in the other threads, and `transform_reduce` does what it does alone on the memory at the beginning. -/
theorem concurrent_transformReduce {calls : ι → Alg α} {mem : List α} (hok : ∀ i, (calls i).Ok mem) (hind : Independent calls)
    {R : REnv α β τ} (hl : ∀ b ∈ R.ins, b + R.n ≤ mem.length) (hr : ∀ i a, (calls i).Writes a → ¬ ReduceReads R a) (init : τ) :
    ∃ P : ∀ i, List (Instr (calls i).State α), (∀ i, (calls i).program = .ok (P i)) ∧
      ∀ sched : Nat → List ι, ∃ c : ∀ _ : Nat, Config ι (fun i => (calls i).State) α,
        (∀ k, runSchedule (sched k) (start calls P mem) = .ok (c k)) ∧
        ∃ k, transformReduceTimed (REnv.t R) (pureOps R.trans R.rT R.cvt R.hredB R.hredT) (fun k => (c k).mem) init 0 =
          (transformReduce R mem init >>= fun v => .ok (k, some v)) := by
  obtain ⟨P, hP, r, -, H⟩ := concurrent_calls hok hind
  refine ⟨P, hP, fun sched => ?_⟩
  obtain ⟨c, hc⟩ := Classical.skolem.1 fun k => H (sched k)
  refine ⟨c, fun k => (hc k).1, transformReduce_stable hl ?_ init⟩
  intro k a ha
  exact (hc k).2.2.2.2.1 a fun i hw => hr i a hw ha

/-- **C86 (`transform_reduce`, value).** So for an associative and commutative operation it returns the left fold over the
elements at the beginning, under the preconditions of C15. -/
theorem concurrent_transformReduce_fold {calls : ι → Alg α} {mem : List α} (hok : ∀ i, (calls i).Ok mem) (hind : Independent calls)
    {R : REnv α τ τ} (hw : ∀ i a, (calls i).Writes a → ¬ ReduceReads R a) (hr1 : R.rB = R.rT) (hr2 : R.cvt = id)
    (hassoc : ∀ a b c, R.rT (R.rT a b) c = R.rT a (R.rT b c)) (hcomm : ∀ a b, R.rT a b = R.rT b a)
    (ok : InputsOk R mem) (wf : R.e.WF)
    (hce : R.e.constEval = false) (hpt : R.e.strictPtr = false) (hf : R.e.Fits R.n)
    (hr : ReachesAlignment R.e R.n) (he : ¬ EndsAtFirstAligned R.e R.n)
    (ha : R.e.pol.assumeMatchingSize = true → R.e.size ∣ R.n)
    (hT : HReduce R.rT R.hredT) (hB : HReduce R.rT R.hredB) (g : List α → τ) (hg : LaneWise R.trans g) (init : τ) :
    ∃ P : ∀ i, List (Instr (calls i).State α), (∀ i, (calls i).program = .ok (P i)) ∧
      ∀ sched : Nat → List ι, ∃ c : ∀ _ : Nat, Config ι (fun i => (calls i).State) α,
        (∀ k, runSchedule (sched k) (start calls P mem) = .ok (c k)) ∧
        transformReduceTimed (REnv.t R) (pureOps R.trans R.rT R.cvt R.hredB R.hredT) (fun k => (c k).mem) init 0 =
          .ok (R.n * R.ins.length, some ((transformed R g mem).foldl R.rT init)) := by
  obtain ⟨P, hP, r, -, H⟩ := concurrent_calls hok hind
  refine ⟨P, hP, fun sched => ?_⟩
  obtain ⟨c, hc⟩ := Classical.skolem.1 fun k => H (sched k)
  refine ⟨c, fun k => (hc k).1, ?_⟩
  obtain ⟨k, h2⟩ := transformReduce_stable (mems := fun k => (c k).mem) ok.ins_le
    (fun k a ha => (hc k).2.2.2.2.1 a fun i hw' => hw i a hw' ha) init
  obtain ⟨v, h3⟩ := transformReduce_accesses (mems := fun k => (c k).mem) ok.ins_ne
    (fun b hb k => by rw [(hc k).2.2.1]; exact ok.ins_le b hb) wf hce hpt hf hr he ha init 0
  rw [transformReduce_eq_fold hr1 hr2 hassoc hcomm ok wf hce hpt hf hr he ha hT hB g hg init, h3] at h2
  simp only [Outcome.bind_ok, Outcome.ok.injEq, Prod.mk.injEq, Option.some.injEq] at h2
  rw [h3, h2.2, Nat.zero_add]

/-! ### the theorems are about something -/

-- another thread increments the elements after the 23 that are summed
private theorem elsewhere : ∀ a, (Alg.forEach plainEnv true Nat incr 0 23 7).Writes a → ¬ ReduceReads (exampleR [.preferAligned] [1, 12] 11) a := by
  rintro a ⟨-, h1, h2⟩ ⟨b, hb, h3, h4⟩
  have hn : (exampleR [.preferAligned] [1, 12] 11).n = 11 := rfl
  have hb : b ∈ [1, 12] := hb
  simp at hb
  omega
private theorem elsewhere_ok : (Alg.forEach plainEnv true Nat incr 0 23 7).Ok (List.range 30) :=
  ⟨plainEnv_wf, rfl, rfl, by unfold Env.Fits; decide, plainEnv_reaches _, by intro h; revert h; decide, by decide⟩
example : (transformReduceTimed (REnv.t (exampleR [.preferAligned] [1, 12] 11))
      (pureOps sumOp (· + ·) id List.sum List.sum) (fun k => List.range 23 ++ List.replicate 7 k) 100 0 : Outcome (Nat × Option Nat)) =
    .ok (22, some 353) := by decide +kernel

/-- **C86 (the condition is needed).** If the elements change while they are summed, the result can be the sum of neither the old nor the new
elements. -/
theorem transformReduce_torn :
    ∃ (mems : Nat → List Nat) (R : REnv Nat Nat Nat), (∀ k, mems k = [1, 1, 1, 1, 1, 1, 1, 1] ∨ mems k = [2, 2, 2, 2, 2, 2, 2, 2]) ∧
      (transformReduceTimed (REnv.t R) (pureOps R.trans R.rT R.cvt R.hredB R.hredT) mems 0 0 = .ok (8, some 12)) ∧
      transformReduce R (mems 0) 0 = .ok 8 ∧ transformReduce R (mems 7) 0 = .ok 16 :=
  ⟨fun k => if k < 4 then [1, 1, 1, 1, 1, 1, 1, 1] else [2, 2, 2, 2, 2, 2, 2, 2], exampleR [] [0] 8,
    fun k => by by_cases h : k < 4 <;> simp [h], by decide +kernel, by decide +kernel, by decide +kernel⟩

/-! ## The theorems applied to concrete data -/

private theorem exR_wf : (exampleR [.preferAligned] [1, 12] 11).e.WF := exampleR_wf [.preferAligned] [1, 12] 11 ⟨[.preferAligned], by decide⟩

example := transformReduce_stable (R := exampleR [.preferAligned] [1, 12] 11) (mem := List.range 23) (by decide)
  (mems := fun _ => List.range 23) (fun _ _ _ => rfl) 100
example := transformReduce_accesses (R := exampleR [.preferAligned] [1, 12] 11) (mems := fun k => List.range 23 ++ List.replicate 7 k)
  (by decide) (by intro b hb k; have hb : b ∈ [1, 12] := hb; simp at hb; simp [exampleR]; omega) exR_wf rfl rfl
  (show 11 * 4 < 2 ^ 64 by decide) ((reaches_iff exR_wf).2 (by decide)) (fun h => absurd ((ends_iff exR_wf).1 h) (by decide)) (by decide) 100 0
example := concurrent_transformReduce (calls := fun _ : Unit => Alg.forEach plainEnv true Nat incr 0 23 7) (mem := List.range 30)
  (fun _ => elsewhere_ok) (fun i j h => absurd rfl h) (R := exampleR [.preferAligned] [1, 12] 11) (by decide) (fun _ => elsewhere) 100
example := concurrent_transformReduce_fold (calls := fun _ : Unit => Alg.forEach plainEnv true Nat incr 0 23 7) (mem := List.range 30)
  (fun _ => elsewhere_ok) (fun i j h => absurd rfl h) (R := exampleR [.preferAligned] [1, 12] 11) (fun _ => elsewhere) rfl rfl
  Nat.add_assoc Nat.add_comm ⟨by decide, by decide⟩ exR_wf rfl rfl (show 11 * 4 < 2 ^ 64 by decide)
  ((reaches_iff exR_wf).2 (by decide)) (fun h => absurd ((ends_iff exR_wf).1 h) (by decide)) (by decide) hreduce_sum hreduce_sum
  List.sum sumOp_laneWise 100

end Vir.Threads
