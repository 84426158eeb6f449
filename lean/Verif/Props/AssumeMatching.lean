import Verif.Lemmas.FullWidth
import Verif.Props.CallCount

/-!
# C07: `assume_matching_size`

The trap comes before anything else: the algorithm traps whatever an invocation would do, also if every single one had undefined
behaviour. With a matching size all simd objects have the full width.
-/

namespace Vir
open Spec ForEach Transform TransformReduce

variable {σ α β τ S : Type}

private theorem mod_ne {n s : Nat} (h : ¬ s ∣ n) : n ≠ 0 ∧ n % s ≠ 0 :=
  ⟨fun h0 => h (h0 ▸ Nat.dvd_zero _), fun h1 => h (Nat.dvd_of_mod_eq_zero h1)⟩

private theorem argsOf_length (evs : List (OpEvent α)) {m : Nat} (h : ∀ ev ∈ evs, (ev.args.getD 0 []).length = m) :
    (argsOf 0 evs).length = evs.length * m := by
  induction evs with
  | nil => simp [argsOf]
  | cons ev evs ih =>
    have h6 := ih fun ev hev => h ev (by simp [hev])
    have h7 := h ev (by simp)
    simp only [argsOf, List.map_cons, List.flatten_cons, List.length_append, List.length_cons] at h6 ⊢
    rw [h6, h7, Nat.add_mul]; omega

private theorem transformedArgs_length (log : List (REvent α β τ)) {m : Nat}
    (h : ∀ args r, REvent.trans args r ∈ log → (args.getD 0 []).length = m) :
    (transformedArgs 0 log).length = transCalls log * m := by
  induction log with
  | nil => simp [transformedArgs, transCalls]
  | cons ev log ih =>
    have ih := ih fun args r hm => h args r (by simp [hm])
    cases ev with
    | trans args r =>
      have := h args r (by simp)
      simp only [transformedArgs, transCalls, List.length_append, ih, this, Nat.add_mul]
      omega
    | red x y r => exact ih
    | hredB v r => exact ih
    | hredT v r => exact ih

/-- **C07 (`for_each`, other sizes).** `for_each` traps, whatever loading, invoking the callable and storing would do (`inv` is arbitrary,
it may for example be undefined behaviour), at run time and during constant evaluation. -/
theorem forEach_assume_traps_first {e : Env} (ha : e.pol.assumeMatchingSize = true) {n : Nat} (hn : ¬ e.size ∣ n)
    (inv : ForEach.Inv S) (st : S) : forEachG e inv n st = .trap := by
  simp [forEachG, mod_ne hn, ha]

/-- **C07 (`transform`, other sizes).** The same for `transform`. -/
theorem transform_assume_traps_first {t : TEnv} (ha : t.e.pol.assumeMatchingSize = true) (hn : ¬ t.e.size ∣ t.n)
    (inv : TInv S) (st : S) : transformG t inv st = .trap := by
  simp [transformG, mod_ne hn, ha]

/-- **C07 (`transform_reduce`, other sizes).** The same for `transform_reduce`: `ld` is what loading and invoking `transform_op` would
do. -/
theorem transformReduce_assume_traps_first {t : TEnv} (ha : t.e.pol.assumeMatchingSize = true) (hn : ¬ t.e.size ∣ t.n)
    (ops : ROps σ α β τ) (ld : Loader σ β) (init : τ) (s : σ) : transformReduceL t ops ld init s = .trap := by
  simp [transformReduceL, mod_ne hn, ha]

/-- **C07 (`count_if`, other sizes).** -/
theorem countIf_assume_traps {e : Env} (ha : e.pol.assumeMatchingSize = true) (xs : List α) (hn : ¬ e.size ∣ xs.length)
    (hred : List (Outcome Int) → Outcome Int) (p : CountIf.TPred σ α) (s : σ) : countIfT e hred p s xs = .trap := by
  unfold countIfT forEachT
  rw [forEach_assume_traps_first ha hn]
  rfl

/-- **C07 (`for_each`, matching size).** All invocations get simd objects of the full width only. The callable may throw; if it does
not then all elements are processed. -/
theorem forEach_assume_widths {e : Env} (wf : e.WF) (hce : e.constEval = false) (hpt : e.strictPtr = false)
    (ha : e.pol.assumeMatchingSize = true) (wb : Bool) (f : TCallable σ α) (s : σ) (xs : List α) (hf : e.Fits xs.length)
    (hd : e.size ∣ xs.length) :
    ∃ r : TState (σ × List (TEvent α)) α, forEachT e wb (loggedT f) (s, []) xs = .ok r ∧
      (∀ ev ∈ recordOf r, ∀ a ∈ ev.args, a.length = e.size) ∧
      ((∀ ev ∈ recordOf r, ev.result.isSome) → visitedT (recordOf r) = xs) := by
  have hr := assume_reaches wf ha xs.length
  have hp := (reaches_iff wf).1 hr
  have htr := forEachG_trace wf hce hf hp (by simp [hpt]) (fun _ => hd) (invokeT e wb (loggedT f)) (.inl ((s, []), xs))
  have key : ∀ r, forEachT e wb (loggedT f) (s, []) xs = .ok r → ∀ ev ∈ recordOf r, ∀ a ∈ ev.args, a.length = e.size := by
    intro r h
    unfold forEachT at h
    rw [htr] at h
    refine runGroups_keeps _ (fun st => ∀ ev ∈ recordOf st, ∀ a ∈ ev.args, a.length = e.size) _ ?_ _ _ _ ?_ h
    · intro g hg p st st' h0 hi
      rcases invokeT_width _ _ _ _ _ _ _ _ _ hi with h | ⟨ev, h, hk⟩
      · rw [h]; exact h0
      · rw [h]
        intro ev' hev
        rcases List.mem_append.1 hev with h | h
        · exact h0 ev' h
        · rw [List.mem_singleton.1 h, ← groupsOf_full wf ha hd g hg]; exact hk
    · intro ev hev; cases hev
  rcases forEach_throwing wf hce hpt wb f s xs hf hr (fun _ => hd) with ⟨s', log, h1, _, h3⟩ | ⟨s', log, last, h1, _, h3, _⟩
  · exact ⟨_, h1, key _ h1, fun _ => h3⟩
  · refine ⟨_, h1, key _ h1, fun h => ?_⟩
    have := h last (by simp [recordOf])
    rw [h3] at this; cases this

/-- **C07 (`transform`, matching size).** -/
theorem transform_assume_widths {t : TEnv} {mem : List α} (ok : RangesOk t mem) (wf : t.e.WF)
    (hce : t.e.constEval = false) (hpt : t.e.strictPtr = false) (hf : t.e.Fits t.n)
    (ha : t.e.pol.assumeMatchingSize = true) (hd : t.e.size ∣ t.n)
    (ord : Nat → List Nat) (hord : ∀ k, (ord k).Perm (List.range k)) (op : TOp σ α) (s : σ) :
    ∃ (d : Int) (r : TState (σ × List (OpEvent α)) α), transformT t ord (loggedOp op) (s, []) mem = .ok (d, r) ∧
      (∀ ev ∈ recordOf r, ∀ a ∈ ev.args, a.length = t.e.size) ∧
      ((∀ ev ∈ recordOf r, ev.result.isSome) → (recordOf r).length = t.n / t.e.size) := by
  have hr := assume_reaches wf ha t.n
  have hp := (reaches_iff wf).1 hr
  have htr := transformG_trace wf hce hf hp (by simp [hpt]) (fun _ => hd) (chunksT t ord (loggedOp op)) (.inl ((s, []), mem))
  have key : ∀ d r, transformT t ord (loggedOp op) (s, []) mem = .ok (d, r) → AllWide t.e.size (recordOf r) := by
    intro d r h
    unfold transformT at h
    rw [htr] at h
    cases hg : runGroups (Transform.atPos (chunksT t ord (loggedOp op))) 0 (groupsOf t.e t.n) (.inl ((s, []), mem)) with
    | ub x => rw [hg] at h; cases h
    | trap => rw [hg] at h; cases h
    | ok st =>
      rw [hg] at h
      simp only [Outcome.bind_ok, Outcome.ok.injEq, Prod.mk.injEq] at h
      rw [← h.2]
      refine runGroups_keeps _ (fun st => AllWide t.e.size (recordOf st)) _ ?_ _ _ _ ?_ hg
      · intro g hg p st st' h0 hi
        rw [← groupsOf_full wf ha hd g hg] at h0 ⊢
        exact chunksT_width _ _ _ _ _ _ _ _ _ _ _ h0 hi
      · intro ev hev; cases hev
  rcases transform_effects ok wf hce hpt hf hr (fun _ => hd) ord hord op s with ⟨s', log, evs, h1, h2, h3, h4, h5⟩ | ⟨s', log, evs, cur, last, m, r, h1, _, _, _, _, _, h7, _⟩
  · refine ⟨_, _, h1, key _ _ h1, fun _ => ?_⟩
    have hw := key _ _ h1
    have hi : 0 < t.ins.length := List.length_pos_iff.2 ok.ins_ne
    have hs := argsOf_length evs (m := t.e.size) fun ev hev => by
      have hl := (h3 ev hev).2
      refine hw ev (h2.mem_iff.2 hev) _ ?_
      rw [List.getD_eq_getElem?_getD, List.getElem?_eq_getElem (show 0 < ev.args.length by omega)]
      exact List.getElem_mem _
    have hl := ok.ins_le _ (List.getElem_mem hi)
    rw [h5 0 hi, List.length_take, List.length_drop, Nat.min_eq_left (by omega)] at hs
    show log.length = _
    rw [h2.length_eq, hs, Nat.mul_div_cancel _ wf.size_pos]
  · refine ⟨_, _, h1, key _ _ h1, fun h => ?_⟩
    have := h last (by simp [recordOf])
    rw [h7] at this; cases this

open CountIf in
/-- **C07 (`count_if`, matching size).** -/
theorem countIf_assume_widths {e : Env} (wf : e.WF) (hce : e.constEval = false) (hpt : e.strictPtr = false)
    (ha : e.pol.assumeMatchingSize = true) (hred : List (Outcome Int) → Outcome Int) (p : TPred σ α) (s : σ) (xs : List α)
    (hf : e.Fits xs.length) (hd : e.size ∣ xs.length) {s' : σ} {log : List (PEvent α)} {r : Option Int}
    (h : countIfT e hred (loggedP p) (s, []) xs = .ok ((s', log), r)) : ∀ ev ∈ log, ev.arg.length = e.size := by
  have hp := (reaches_iff wf).1 (assume_reaches wf ha xs.length)
  have htr := forEachG_trace wf hce hf hp (by simp [hpt]) (fun _ => hd) (invokeT e false (callableT (loggedP p)))
    (.inl (((s, []), .ok (0, List.replicate e.size 0)), xs))
  unfold countIfT forEachT at h
  rw [htr] at h
  let lg : TState ((σ × List (PEvent α)) × Counters) α → List (PEvent α) := fun st => st.elim (·.1.1.2) (·.1.1.2)
  cases hg : runGroups (ForEach.atPos (invokeT e false (callableT (loggedP p)))) 0 (groupsOf e xs.length)
      (.inl (((s, []), .ok (0, List.replicate e.size 0)), xs)) with
  | ub x => rw [hg] at h; cases h
  | trap => rw [hg] at h; cases h
  | ok st =>
    rw [hg, Outcome.bind_ok] at h
    have h1 : ∀ ev ∈ lg st, ev.arg.length = e.size := by
      refine runGroups_keeps _ (fun st => ∀ ev ∈ lg st, ev.arg.length = e.size) _ ?_ _ _ _ ?_ hg
      · intro g hgm p' st st' h0 hi
        have hw := groupsOf_full wf ha hd g hgm
        simp only [ForEach.atPos] at hi
        unfold invokeT at hi
        match st with
        | .inr x => simp only [Outcome.ok.injEq] at hi; subst hi; exact h0
        | .inl (((s, log), c), mem) =>
          simp only at hi
          cases hl : loadAll e mem g.aligned g.w g.k p' with
          | ub r => rw [hl] at hi; cases hi
          | trap => rw [hl] at hi; cases hi
          | ok cs =>
            rw [hl, Outcome.bind_ok] at hi
            have hk := (ForEachStruct.loadAll_ok_length hl).2
            rw [hw] at hk
            have := lambdaT_width p e.size cs hk s log h0 c
            simp only [callableT] at hi
            generalize lambdaT (loggedP p) cs ((s, log), c) = q at hi this
            obtain ⟨s1, b⟩ := q
            simp only at this
            cases b <;> simp only [if_true, Bool.false_eq_true, if_false, Outcome.ok.injEq] at hi <;> subst hi <;> exact this
      · intro ev hev; cases hev
    have h2 : lg st = log := by
      rcases st with ⟨⟨s1, c⟩, m⟩ | ⟨⟨s1, c⟩, m⟩
      · cases c with
        | ub x => cases h
        | trap => cases h
        | ok c =>
          simp only [Outcome.bind_ok] at h
          cases hq : sumCountv hred c.2 with
          | ub x => rw [hq] at h; cases h
          | trap => rw [hq] at h; cases h
          | ok q =>
            rw [hq, Outcome.bind_ok] at h
            cases hz : addInt c.1 q with
            | ub x => rw [hz] at h; cases h
            | trap => rw [hz] at h; cases h
            | ok z =>
              rw [hz, Outcome.bind_ok] at h
              simp only [Outcome.ok.injEq, Prod.mk.injEq] at h
              show s1.2 = log
              rw [h.1]
      · cases c with
        | ub x => cases h
        | trap => cases h
        | ok c =>
          simp only [Outcome.bind_ok, Outcome.ok.injEq, Prod.mk.injEq] at h
          show s1.2 = log
          rw [h.1]
    rwa [h2] at h1

/-- **C07 (`transform_reduce`, matching size).** `transform_op` gets simd objects of the full width only. If nothing throws it
is invoked `n / size` times. -/
theorem transformReduce_assume_widths {t : TEnv} {mem : List α} (ne : t.ins ≠ []) (ok : ∀ a ∈ t.ins, a + t.n ≤ mem.length)
    (wf : t.e.WF) (hce : t.e.constEval = false) (hpt : t.e.strictPtr = false) (hf : t.e.Fits t.n)
    (ha : t.e.pol.assumeMatchingSize = true) (hd : t.e.size ∣ t.n) (ops : ROps σ α β τ) (init : τ) (s : σ) :
    ∃ s' log v, transformReduceE t (loggedR ops) mem init (s, []) = .ok ((s', log), v) ∧
      (∀ args res, REvent.trans args res ∈ log → ∀ a ∈ args, a.length = t.e.size) ∧
      (v.isSome → transCalls log = t.n / t.e.size) := by
  have hends : ¬ EndsAtFirstAligned t.e t.n := by rw [ends_iff wf, proCount_assume wf _ ha]; omega
  have key : ∀ s' log v, transformReduceE t (loggedR ops) mem init (s, []) = .ok ((s', log), v) →
      log.countP (narrow t.e.size) = 0 := by
    intro s' log v h
    have := transformReduceL_assume_cost (narrow_prims t ops mem) wf hce ha init _ _ _ h
    simpa using this
  have wide : ∀ log : List (REvent α β τ), log.countP (narrow t.e.size) = 0 →
      ∀ args res, REvent.trans args res ∈ log → ∀ a ∈ args, a.length = t.e.size := by
    intro log h args res hm a haa
    have := List.countP_eq_zero.1 h _ hm
    simp only [narrow, List.any_eq_true, bne_iff_ne, ne_eq, not_exists, not_and, Decidable.not_not] at this
    exact this a haa
  have hi : 0 < t.ins.length := List.length_pos_iff.2 ne
  rcases transformReduce_effects ne ok wf hce hpt hf (assume_reaches wf ha _) hends (fun _ => hd) ops init s with
    ⟨s', log, v, h1, _, h3, _, h5⟩ | ⟨s', log, last, h1, _⟩
  · refine ⟨_, _, _, h1, wide _ (key _ _ _ h1), fun _ => ?_⟩
    have hw := wide _ (key _ _ _ h1)
    have hs := transformedArgs_length log (m := t.e.size) fun args r hm => by
      have hl := (h3 _ hm).1
      refine hw args r hm _ ?_
      rw [List.getD_eq_getElem?_getD, List.getElem?_eq_getElem (show 0 < args.length by omega)]
      exact List.getElem_mem _
    have hl := ok _ (List.getElem_mem hi)
    rw [h5 0 hi, List.length_take, List.length_drop, Nat.min_eq_left (by omega)] at hs
    rw [hs, Nat.mul_div_cancel _ wf.size_pos]
  · exact ⟨_, _, _, h1, wide _ (key _ _ _ h1), fun h => by cases h⟩

/-- **C81 (`transform_reduce`, matching size).** If the range starts at an aligned address, or alignment does not matter to the
policy, and the number of elements is a multiple of `size`, then `transform_op` gets objects of the full width only: `n / size` of
them, fewer only after an exception. -/
theorem transformReduce_call_count_matching {t : TEnv} {mem : List α} (ne : t.ins ≠ [])
    (ok : ∀ a ∈ t.ins, a + t.n ≤ mem.length) (wf : t.e.WF) (hce : t.e.constEval = false) (hpt : t.e.strictPtr = false)
    (hf : t.e.Fits t.n) (hs : StartsAligned t.e) (hd : t.e.size ∣ t.n) (ops : ROps σ α β τ) (init : τ) (s : σ) :
    ∃ s' log v, transformReduceE t (loggedR ops) mem init (s, []) = .ok ((s', log), v) ∧
      (∀ args res, REvent.trans args res ∈ log → ∀ a ∈ args, a.length = t.e.size) ∧
      transCalls log ≤ t.n / t.e.size ∧ (v.isSome → transCalls log = t.n / t.e.size) := by
  have hends : ¬ EndsAtFirstAligned t.e t.n := by rw [ends_iff wf, startsAligned_proCount hs]; omega
  have wide : ∀ s' log v, transformReduceE t (loggedR ops) mem init (s, []) = .ok ((s', log), v) →
      ∀ args res, REvent.trans args res ∈ log → ∀ a ∈ args, a.length = t.e.size := by
    intro s' log v h args res hm a haa
    have h0 := transformReduceL_exact_cost (narrow_prims t ops mem) hce hpt hs hd init _ _ _ h
    have h0 : log.countP (narrow t.e.size) = 0 := by simpa using h0
    have := List.countP_eq_zero.1 h0 _ hm
    simp only [narrow, List.any_eq_true, bne_iff_ne, ne_eq, not_exists, not_and, Decidable.not_not] at this
    exact this a haa
  have hi : 0 < t.ins.length := List.length_pos_iff.2 ne
  have len : ∀ log : List (REvent α β τ), (∀ ev ∈ log, ShapeOk t.e.size t.ins.length ev) →
      (∀ args res, REvent.trans args res ∈ log → ∀ a ∈ args, a.length = t.e.size) →
      (transformedArgs 0 log).length = transCalls log * t.e.size := by
    intro log h3 hw
    refine transformedArgs_length log fun args r hm => ?_
    have hl := (h3 _ hm).1
    refine hw args r hm _ ?_
    rw [List.getD_eq_getElem?_getD, List.getElem?_eq_getElem (show 0 < args.length by omega)]
    exact List.getElem_mem _
  have hl := ok _ (List.getElem_mem hi)
  rcases transformReduce_effects ne ok wf hce hpt hf (startsAligned_reaches hs _) hends (fun _ => hd) ops init s with
    ⟨s', log, v, h1, _, h3, _, h5⟩ | ⟨s', log, last, h1, _, _, h3, _, h5⟩
  · have hs := len log h3 (wide _ _ _ h1)
    rw [h5 0 hi, List.length_take, List.length_drop, Nat.min_eq_left (by omega)] at hs
    have he : transCalls log = t.n / t.e.size := by rw [hs, Nat.mul_div_cancel _ wf.size_pos]
    exact ⟨_, _, _, h1, wide _ _ _ h1, Nat.le_of_eq he, fun _ => he⟩
  · refine ⟨_, _, _, h1, wide _ _ _ h1, ?_, fun h => by cases h⟩
    have hs := len _ h3 (wide _ _ _ h1)
    have hle := (h5 0 hi).length_le
    rw [List.length_take, List.length_drop] at hle
    rw [Nat.le_div_iff_mul_le wf.size_pos, ← hs]
    omega

/-! ## The theorems applied to concrete data -/

private theorem wfAssume : exampleEnvAssume.WF :=
  libstdcxx_wf _ (by decide) ⟨2, rfl⟩ rfl (by decide) ⟨[.assumeMatchingSize], by decide⟩ (by decide)
private def exAssumeT (n : Nat) : TEnv := { exampleT [.assumeMatchingSize] with n := n }
private theorem wfAssumeT (n : Nat) : (exAssumeT n).e.WF := wfAssume

-- any invocation would be undefined behaviour, but there is none
example : forEachG exampleEnvAssume (fun _ _ _ _ _ => .ub .oob) 9 () = .trap := forEach_assume_traps_first (by decide) (by decide) _ _
example : transformG (exAssumeT 9) (fun _ _ _ _ _ _ _ => .ub .oob) () = .trap := transform_assume_traps_first (by decide) (by decide) _ _
example (ops : ROps Nat Nat Nat Nat) : transformReduceL (exAssumeT 9) ops (fun _ _ _ _ _ => .ub .oob) 0 0 = .trap :=
  transformReduce_assume_traps_first (by decide) (by decide) _ _ _ _
example (p : CountIf.TPred Nat Nat) : countIfT exampleEnvAssume CountIf.fallbackSum p 0 (List.range 9) = .trap :=
  countIf_assume_traps (by decide) _ (by decide) _ _ _

example (lim : Nat) := forEach_assume_widths wfAssume rfl rfl (by decide) true (throwsAt lim) 0 (List.range 8)
  (by unfold Env.Fits; decide) (by decide)
example (op : TOp Nat Nat) := transform_assume_widths (t := exAssumeT 8) (mem := List.range 23)
  ⟨by decide, by decide, by decide, by decide⟩ (wfAssumeT 8) rfl rfl (show 8 * 4 < 2 ^ 64 by decide) (by decide) (by decide)
  List.range (fun _ => .refl _) op 0
example (p : CountIf.TPred Nat Nat) (s : Nat) (l : List (PEvent Nat)) (r : Option Int)
    (h : countIfT exampleEnvAssume CountIf.fallbackSum (loggedP p) (0, []) (List.range 8) = .ok ((s, l), r)) :
    ∀ ev ∈ l, ev.arg.length = 4 :=
  countIf_assume_widths wfAssume rfl rfl (by decide) CountIf.fallbackSum p 0 (List.range 8) (by unfold Env.Fits; decide) (by decide) h
example (lim : Nat) := transformReduce_assume_widths (t := exAssumeT 8) (mem := List.range 23) (by decide) (by decide) (wfAssumeT 8)
  rfl rfl (show 8 * 4 < 2 ^ 64 by decide) (by decide) (by decide) (exThrowing lim) 100 0

private theorem wfPlainT : (exampleT [.unrollBy 2]).e.WF :=
  libstdcxx_wf _ (by decide) ⟨2, rfl⟩ rfl (by decide) ⟨[.unrollBy 2], by decide⟩ (by decide)
example (lim : Nat) := transformReduce_call_count_matching (t := { exampleT [.unrollBy 2] with n := 8 }) (mem := List.range 23)
  (by decide) (by decide) wfPlainT rfl rfl (show 8 * 4 < 2 ^ 64 by decide) (Or.inr (by decide)) (by decide) (exThrowing lim) 100 0

end Vir
