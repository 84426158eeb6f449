import Verif.Lemmas.ReduceEffectsPure
import Verif.Props.TransformReduce

/-!
# C64: `vir::transform_reduce` with operations that have side effects or throw

`loggedR ops` are the operations `ops`, which read and change a state of the user's and may throw, together with a record of
all invocations, in their order.
-/

namespace Vir
open Spec ForEach TransformReduce

variable {σ α β τ : Type}

/-- What an observer can rely on, whatever the operations do. Either the algorithm returns a value; then no invocation threw and
`transform_op` saw every element of every input range exactly once, in the order of the ranges, and `reduce_op` combined exactly as many
pairs as there are elements: nothing is computed twice or thrown away. Or it ends with the exception of
the last invocation: no invocation follows the one that threw, and up to then `transform_op` saw a prefix of every range, and
`reduce_op` was not given more pairs. -/
def Spec.EffectsOk (t : TEnv) (mem : List α) (r : Outcome ((σ × List (REvent α β τ)) × Option τ)) : Prop :=
  (∃ s' log v, r = .ok ((s', log), some v) ∧ (∀ ev ∈ log, ev.threw = false) ∧
      (∀ ev ∈ log, ShapeOk t.e.size t.ins.length ev) ∧ combined log = t.n ∧
      ∀ i (_ : i < t.ins.length), transformedArgs i log = (mem.drop t.ins[i]).take t.n) ∨
  (∃ s' log last, r = .ok ((s', log ++ [last]), none) ∧ (∀ ev ∈ log, ev.threw = false) ∧ last.threw = true ∧
      (∀ ev ∈ log ++ [last], ShapeOk t.e.size t.ins.length ev) ∧ combined (log ++ [last]) ≤ t.n ∧
      ∀ i (_ : i < t.ins.length), transformedArgs i (log ++ [last]) <+: (mem.drop t.ins[i]).take t.n)

private theorem effects_of_tri {t : TEnv} {mem : List α} {m : Eff (σ × List (REvent α β τ)) τ} {s : σ}
    (h : Eff.Tri (fun p u s => p ≤ t.n ∧ LogAt t mem p u s) (LogEnd t mem) (fun _ => False) 0 0 t.n 0 (fun _ => True) m) :
    EffectsOk t mem (m (s, [])) := by
  have h0 : 0 ≤ t.n ∧ LogAt t mem 0 0 ((s, []) : σ × List (REvent α β τ)) :=
    ⟨Nat.zero_le _, by simp, by simp, rfl, by intro i hi; simp [transformedArgs, slice]⟩
  rcases h _ h0 with ⟨⟨s', log⟩, v, h1, ⟨_, h2, h3, h5, h4⟩, _⟩ | ⟨⟨s', full⟩, h1, log, last, h2, h3, h4, h5, h7, h6⟩ | ⟨_, _, h⟩
  · exact Or.inl ⟨s', log, v, h1, h2, h3, h5, h4⟩
  · simp only at h2 h5 h6 h7
    subst h2
    refine Or.inr ⟨s', log, last, h1, h3, h4, h5, h7, ?_⟩
    intro i hi
    obtain ⟨q, hq, hs⟩ := h6 i hi
    rw [hs]
    exact List.take_prefix_take_left hq
  · exact h.elim

/-- **C64.** Side effects and exceptions of the operations passed to `transform_reduce`, under the preconditions of C14. -/
theorem transformReduce_effects {t : TEnv} {mem : List α} (ne : t.ins ≠ []) (ok : ∀ a ∈ t.ins, a + t.n ≤ mem.length)
    (wf : t.e.WF) (hce : t.e.constEval = false) (hpt : t.e.strictPtr = false) (hf : t.e.Fits t.n)
    (hr : ReachesAlignment t.e t.n) (he : ¬ EndsAtFirstAligned t.e t.n)
    (ha : t.e.pol.assumeMatchingSize = true → t.e.size ∣ t.n) (ops : ROps σ α β τ) (init : τ) (s : σ) :
    EffectsOk t mem (transformReduceE t (loggedR ops) mem init (s, [])) := by
  have hp := (reaches_iff wf).1 hr
  rw [ends_iff wf] at he
  exact effects_of_tri (transformReduceE_tri (logged_prims ⟨ne, ok⟩ ops) wf hce hpt hf (by omega) ha 0 init)

/-- **C64 (constant evaluation).** The same during constant evaluation, for every policy and address. -/
theorem transformReduce_const_effects {t : TEnv} {mem : List α} (ne : t.ins ≠ []) (ok : ∀ a ∈ t.ins, a + t.n ≤ mem.length)
    (hsz : 0 < t.e.size) (hce : t.e.constEval = true)
    (ha : t.e.pol.assumeMatchingSize = true → t.e.size ∣ t.n) (ops : ROps σ α β τ) (init : τ) (s : σ) :
    EffectsOk t mem (transformReduceE t (loggedR ops) mem init (s, [])) :=
  effects_of_tri (transformReduceE_const_tri (logged_prims ⟨ne, ok⟩ ops) hsz hce ha 0 init)

/-- **C64 (propagation).** `transform_reduce` throws exactly if one of the invocations threw. -/
theorem transformReduce_throws_iff {t : TEnv} {mem : List α} {r : Outcome ((σ × List (REvent α β τ)) × Option τ)}
    (h : EffectsOk t mem r) : ∃ s' log v, r = .ok ((s', log), v) ∧ (v = none ↔ ∃ ev ∈ log, ev.threw = true) := by
  rcases h with ⟨s', log, v, h1, h2, _⟩ | ⟨s', log, last, h1, _, h3, _⟩
  · refine ⟨s', log, some v, h1, by simp, ?_⟩
    rintro ⟨ev, he, ht⟩
    simp [h2 ev he] at ht
  · exact ⟨s', log ++ [last], none, h1, fun _ => ⟨last, by simp, h3⟩, fun _ => rfl⟩

/-- **C64 (agreement of the models).** With operations that have no effects `transform_reduce` is the function of C14–C17: same
value, same undefined behaviour, state untouched. -/
theorem transformReduceE_pure (R : REnv α β τ) (mem : List α) (init : τ) (s : σ) :
    transformReduceE (REnv.t R) (pureOps R.trans R.rT R.cvt R.hredB R.hredT) mem init s =
      (transformReduce R mem init >>= fun v => .ok (s, some v)) := by
  have := congrFun (transformReduceE_eq (σ := σ) R mem init) s
  exact this

/-! ### The hypotheses are met -/

/-- Adds the arguments; counts its invocations and throws on invocation number `lim`. -/
def exThrowing (lim : Nat) : ROps Nat Nat Nat Nat where
  trans c args := (c + 1, if c = lim then none else some (sumOp.call args))
  red c x y := (c + 1, if c = lim then none else some (List.zipWith (· + ·) x y))
  hredB c v := (c + 1, if c = lim then none else some v.sum)
  hredT c v := (c + 1, if c = lim then none else some v.sum)
  cvt := id
  transShape c w args r h1 h2 h3 := by
    simp only at h3
    split at h3
    · simp at h3
    · simp only [Option.some.injEq] at h3; rw [← h3]; exact sumOp.shape w args h1 h2
  redShape c x y r h1 h2 := by
    simp only at h2
    split at h2
    · simp at h2
    · simp only [Option.some.injEq] at h2; rw [← h2]; simp [h1]

example (lim : Nat) : EffectsOk (exampleT [.preferAligned]) (List.range 23)
    (transformReduceE (exampleT [.preferAligned]) (loggedR (exThrowing lim)) (List.range 23) 100 (0, [])) := by
  have wf : (exampleT [.preferAligned]).e.WF :=
    libstdcxx_wf _ (by decide) ⟨2, rfl⟩ rfl (by decide) ⟨[.preferAligned], by decide⟩ (by decide)
  refine transformReduce_effects (by decide) (by decide) wf rfl rfl (show 11 * 4 < 2 ^ 64 by decide) ?_ ?_ (by decide) _ _ _
  · rw [reaches_iff wf]; decide
  · rw [ends_iff wf]; decide

-- a run without exception, and one in which the third invocation (of `reduce_op`) throws
example : (transformReduceE (exampleT [.preferAligned]) (loggedR (exThrowing 1000)) (List.range 23) 100 (0, [])) =
    .ok ((11, [.trans [[1], [12]] (some [13]), .hredB [13] (some 13), .red [100] [13] (some [113]),
      .trans [[2, 3], [13, 14]] (some [15, 17]), .hredB [15, 17] (some 32), .red [113] [32] (some [145]),
      .trans [[4, 5, 6, 7], [15, 16, 17, 18]] (some [19, 21, 23, 25]),
      .trans [[8, 9, 10, 11], [19, 20, 21, 22]] (some [27, 29, 31, 33]),
      .red [19, 21, 23, 25] [27, 29, 31, 33] (some [46, 50, 54, 58]), .hredT [46, 50, 54, 58] (some 208),
      .red [145] [208] (some [353])]), some 353) := by decide +kernel
example : (transformReduceE (exampleT [.preferAligned]) (loggedR (exThrowing 2)) (List.range 23) 100 (0, [])) =
    .ok ((3, [.trans [[1], [12]] (some [13]), .hredB [13] (some 13), .red [100] [13] none]), none) := by decide +kernel

/-! ## The theorems applied to concrete data -/

example := transformReduce_throws_iff (transformReduce_const_effects (t := { exampleT [.preferAligned] with e := { exampleEnv with constEval := true } })
  (mem := List.range 23) (by decide) (by decide) (by decide) rfl (by decide) (exThrowing 2) 100 0)

end Vir
