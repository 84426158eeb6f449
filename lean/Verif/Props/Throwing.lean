import Verif.Lemmas.ThrowingTransform
import Verif.Lemmas.TransformGenEq
import Verif.Props.ForEach
import Verif.Props.Transform

/-!
# C54, C55: callables that throw, operations with side effects

`forEachT` and `transformT` are the algorithms with callables that may throw: the result is `.inl` if the algorithm returns normally
and `.inr` if it is left by an exception, with the state of the callable and the contents of memory at that moment.
-/

namespace Vir
open Spec ForEach Transform

variable {σ α : Type}

/-- **C54.** `for_each` with a callable that may throw. Either no invocation throws: then all elements have been visited in order and
written back. Or one does: then it was the last invocation, the visited elements are a prefix of the range, the pieces of all earlier
invocations are written back, and the elements of the throwing invocation and all after it are as before the call. -/
theorem forEach_throwing {e : Env} (wf : e.WF) (hce : e.constEval = false) (hpt : e.strictPtr = false)
    (wb : Bool) (f : TCallable σ α) (s : σ) (xs : List α) (hf : e.Fits xs.length)
    (hr : ReachesAlignment e xs.length) (ha : e.pol.assumeMatchingSize = true → e.size ∣ xs.length) :
    (∃ s' log, forEachT e wb (loggedT f) (s, []) xs = .ok (.inl ((s', log), if wb then producedT log else xs)) ∧
      (∀ ev ∈ log, ev.result.isSome) ∧ visitedT log = xs) ∨
    (∃ s' log last, forEachT e wb (loggedT f) (s, []) xs =
        .ok (.inr ((s', log ++ [last]), if wb then producedT log ++ xs.drop (visitedT log).length else xs)) ∧
      (∀ ev ∈ log, ev.result.isSome) ∧ last.result = none ∧ visitedT (log ++ [last]) <+: xs) := by
  have hp := (reaches_iff wf).1 hr
  have htr := forEachG_trace wf hce hf hp (by simp [hpt]) ha (invokeT e wb (loggedT f)) (.inl ((s, []), xs))
  have hspan := groupsOf_span hp
  have hrun := runGroups_invokeT e wb f (groupsOf e xs.length) s [] [] xs (groupsOf_aligned wf hp) (by omega)
  simp only [List.nil_append, List.length_nil, hspan, ← htr] at hrun
  rcases hrun with ⟨s', log, outs, h1, h2, h3, h4⟩ | ⟨s', log, last, outs, h1, h2, h3, h4, _, h5⟩
  · left
    refine ⟨s', log, ?_, h2, by simpa using h3⟩
    unfold forEachT
    rw [h1, h4]
    cases wb <;> simp
  · right
    refine ⟨s', log, last, ?_, h2, h3, h4⟩
    unfold forEachT
    rw [h1, h5]
    cases wb <;> simp

/-- **C54.** If the algorithm returns normally no invocation has thrown; if an exception leaves the algorithm then the last
invocation threw it. So an exception is neither swallowed nor invented. -/
theorem forEach_propagates {e : Env} (wf : e.WF) (hce : e.constEval = false) (hpt : e.strictPtr = false)
    (wb : Bool) (f : TCallable σ α) (s : σ) (xs : List α) (hf : e.Fits xs.length)
    (hr : ReachesAlignment e xs.length) (ha : e.pol.assumeMatchingSize = true → e.size ∣ xs.length) :
    ∃ r, forEachT e wb (loggedT f) (s, []) xs = .ok r ∧
      (r.isRight ↔ ∃ ev ∈ (r.elim (·.1.2) (·.1.2)), ev.result = none) := by
  rcases forEach_throwing wf hce hpt wb f s xs hf hr ha with ⟨s', log, h1, h2, _⟩ | ⟨s', log, last, h1, _, h3, _⟩
  · refine ⟨_, h1, ?_⟩
    simp only [Sum.isRight_inl, Bool.false_eq_true, Sum.elim_inl, false_iff, not_exists, not_and]
    intro ev hev h
    have := h2 ev hev
    rw [h] at this; exact absurd this (by simp)
  · refine ⟨_, h1, ?_⟩
    simp only [Sum.isRight_inr, Sum.elim_inr, true_iff]
    exact ⟨last, by simp, h3⟩

/-- **C54.** With a callable that never throws this is the `for_each` of C01–C09. -/
theorem forEach_neverThrows {e : Env} (hs : 0 < e.size) (wb : Bool) (f : Callable σ α) (s : σ) (xs : List α) (r : σ × List α)
    (h : forEach e wb f s xs = .ok r) : forEachT e wb (neverThrows f) s xs = .ok (.inl r) := by
  have hi : InvSim e.size (S' := TState σ α) Sum.inl (ForEach.loadAndInvoke e wb f) (invokeT e wb (neverThrows f)) := by
    intro w aligned k pos st _ _
    obtain ⟨s, mem⟩ := st
    unfold ForEach.loadAndInvoke invokeT
    dsimp only
    cases loadAll e mem aligned w k pos with
    | ub r => trivial
    | trap => trivial
    | ok cs =>
      simp only [Outcome.bind_ok, neverThrows]
      cases wb with
      | false => rfl
      | true =>
        simp only [if_true]
        cases storeAll e aligned w (f.call s cs).2 pos mem <;> first | rfl | trivial
  have := sim_forEach hi hs xs.length (s, xs)
  rw [← forEach_eq_forEachG, h] at this
  exact Sim.of_ok this rfl

/-- **C55.** `transform` with an operation that has side effects and may throw, for any order `ord` in which the compiler evaluates the
invocations of one unrolled iteration. Either no invocation throws: then the recorded invocations, put into the order of positions
(`evs`), got the elements of every input exactly once and in order, the output holds their results in that order, nothing else has
changed, and the end of the output range is returned. Or one throws: then it was the last invocation; the output holds the results for
the first `m` positions, for which the same holds, and everything else, in particular the positions of all other invocations
(`cur` and `last`, at positions from `m` on), is as before the call. -/
theorem transform_effects {t : TEnv} {mem : List α} (ok : RangesOk t mem) (wf : t.e.WF)
    (hce : t.e.constEval = false) (hpt : t.e.strictPtr = false) (hf : t.e.Fits t.n)
    (hr : ReachesAlignment t.e t.n) (ha : t.e.pol.assumeMatchingSize = true → t.e.size ∣ t.n)
    (ord : Nat → List Nat) (hord : ∀ k, (ord k).Perm (List.range k)) (op : TOp σ α) (s : σ) :
    (∃ s' log evs, transformT t ord (loggedOp op) (s, []) mem =
        .ok ((t.n : Int), .inl ((s', log), mem.take t.out ++ resultsOf evs ++ mem.drop (t.out + t.n))) ∧ log.Perm evs ∧
      (∀ ev ∈ evs, ev.result.isSome ∧ ev.args.length = t.ins.length) ∧ (resultsOf evs).length = t.n ∧
      (∀ i (_ : i < t.ins.length), argsOf i evs = (mem.drop t.ins[i]).take t.n)) ∨
    (∃ s' log evs cur last m r, transformT t ord (loggedOp op) (s, []) mem =
        .ok (r, .inr ((s', log ++ cur ++ [last]), mem.take t.out ++ resultsOf evs ++ mem.drop (t.out + m))) ∧ log.Perm evs ∧
      (∀ ev ∈ evs, ev.result.isSome ∧ ev.args.length = t.ins.length) ∧ (resultsOf evs).length = m ∧
      (∀ i (_ : i < t.ins.length), argsOf i evs = (mem.drop t.ins[i]).take m) ∧
      (∀ ev ∈ cur, ev.result.isSome) ∧ last.result = none ∧
      (∀ ev ∈ cur ++ [last], ∃ p w, m ≤ p ∧ p + w ≤ t.n ∧ ev.args = t.ins.map fun a => (mem.drop (a + p)).take w)) := by
  have hp := (reaches_iff wf).1 hr
  have htr := transformG_trace wf hce hf hp (by simp [hpt]) ha (chunksT t ord (loggedOp op)) (.inl ((s, []), mem))
  have hspan := groupsOf_span hp
  have hrun := runGroups_chunksT ok ord hord op (groupsOf t.e t.n) s [] [] (groupsOf_aligned wf hp) (by simp [hspan])
  simp only [List.nil_append, List.length_nil, hspan, writeAt_nil, Nat.add_zero, Nat.zero_add] at hrun
  rcases hrun with ⟨s', log, evs, h1, h2, h3, h4, h5⟩ | ⟨s', log, evs, cur, last, m, h1, h2, h3, h4, h5, h6, h7, h8⟩
  · left
    refine ⟨s', log, evs, ?_, h2, h3, h4, h5⟩
    unfold transformT
    rw [htr, h1]
    simp only [Outcome.bind_ok, writeAt, h4]
  · right
    refine ⟨s', log, evs, cur, last, m, (t.n : Int), ?_, h2, h3, h4, h5, h6, h7, h8⟩
    unfold transformT
    rw [htr, h1]
    simp only [Outcome.bind_ok, writeAt, h4]

/-! ## The theorems apply, and both cases occur -/

/-- Counts its calls, adds 100 to every lane, and throws in call number `n`. -/
def throwsAt (n : Nat) : TCallable Nat Nat where
  call s cs := (s + 1, if s = n then none else some (cs.map (List.map (· + 100))))
  shape s cs r h := by
    dsimp only at h
    split at h
    · exact absurd h (by simp)
    · simp only [Option.some.injEq] at h
      rw [← h]; simp [Function.comp_def]

-- hypotheses: as for C01 (`Props/ForEach.lean`). The third invocation (two chunks of four lanes) throws.
example : forEachT exampleEnv true (loggedT (throwsAt 2)) (0, []) (List.range 23) =
    .ok (.inr ((3, [⟨[[0]], some [[100]]⟩, ⟨[[1, 2]], some [[101, 102]]⟩, ⟨[[3, 4, 5, 6], [7, 8, 9, 10]], none⟩]),
      [100, 101, 102] ++ (List.range 23).drop 3)) := by decide +kernel

example : forEachT exampleEnv true (throwsAt 9) 0 (List.range 23) = .ok (.inl (5, (List.range 23).map (· + 100))) := by
  decide +kernel

/-- Adds 1000 times the number of the call to every lane of its first argument; throws in call number `n`. -/
def opThrowsAt (n : Nat) : TOp Nat Nat where
  call s args := (s + 1, if s = n then none else some ((args.headD []).map (fun x => 1000 * s + x)))
  shape s w args r h1 h2 h3 := by
    dsimp only at h3
    split at h3
    · exact absurd h3 (by simp)
    · simp only [Option.some.injEq] at h3
      rw [← h3]
      cases args with
      | nil => exact absurd rfl h1
      | cons a as => simpa using h2 a (by simp)

-- the two invocations of an unrolled iteration evaluated from right to left (as GCC does for some targets)
example : ∀ k, ((List.range k).reverse).Perm (List.range k) := fun _ => List.reverse_perm _

example : transformT (exampleT [.unrollBy 2]) (fun k => (List.range k).reverse) (opThrowsAt 9) 0 (List.range 23) =
    .ok (11, .inl (4, [1001, 1002, 1003, 1004, 5, 6, 7, 8, 2009, 2010, 3011] ++ (List.range 23).drop 11)) := by decide +kernel

-- the second invocation throws: nothing is stored, although the first one succeeded
example : ∃ r, transformT (exampleT [.unrollBy 2]) (fun k => (List.range k).reverse) (opThrowsAt 1) 0 (List.range 23) =
    .ok (r, .inr (2, List.range 23)) := ⟨11, by decide +kernel⟩

example : ∃ r, transformT (exampleT [.unrollBy 2]) (fun k => List.range k) (opThrowsAt 3) 0 (List.range 23) =
    .ok (r, .inr (4, [1, 2, 3, 4, 1005, 1006, 1007, 1008, 2009, 2010] ++ (List.range 23).drop 10)) := ⟨11, by decide +kernel⟩

/-- **C55 (the order is observable).** Two evaluation orders, both allowed by C++, give different outputs for the same stateful
operation: a caller must not rely on the operation being invoked from left to right. -/
theorem transform_order_observable : ∃ ord ord' : Nat → List Nat, (∀ k, (ord k).Perm (List.range k)) ∧ (∀ k, (ord' k).Perm (List.range k)) ∧
    transformT (exampleT [.unrollBy 2]) ord (opThrowsAt 9) 0 (List.range 23) ≠
      transformT (exampleT [.unrollBy 2]) ord' (opThrowsAt 9) 0 (List.range 23) :=
  ⟨fun k => List.range k, fun k => (List.range k).reverse, fun _ => List.Perm.refl _, fun _ => List.reverse_perm _, by decide +kernel⟩

/-! ## The theorems applied to concrete data -/

example := forEach_throwing exampleEnv_wf rfl rfl true (throwsAt 2) 0 (List.range 23) (by unfold Env.Fits; decide) (fun _ _ _ _ => Or.inr ⟨3, by decide, by decide⟩)
  (by decide)
example := forEach_propagates exampleEnv_wf rfl rfl true (throwsAt 2) 0 (List.range 23) (by unfold Env.Fits; decide) (fun _ _ _ _ => Or.inr ⟨3, by decide, by decide⟩)
  (by decide)
example := forEach_neverThrows (e := exampleEnv) (by decide) true (⟨fun s a => (s + 1, a), fun _ _ => rfl⟩ : Callable Nat Nat) 0 (List.range 23) (5, List.range 23)
  (by decide +kernel)

private theorem throwWf : (exampleT [.unrollBy 2]).e.WF := libstdcxx_wf _ (by decide) ⟨2, rfl⟩ rfl (by decide) ⟨[.unrollBy 2], by decide⟩ (by decide)

example := transform_effects (t := exampleT [.unrollBy 2]) (mem := List.range 23) ⟨by decide, by decide, by decide, by decide⟩ throwWf rfl rfl
  (by show _ * _ < _; decide) ((reaches_iff throwWf).2 (by decide)) (by decide) (fun k => (List.range k).reverse) (fun _ => List.reverse_perm _) (opThrowsAt 3) 0

end Vir
