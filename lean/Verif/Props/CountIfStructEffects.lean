import Verif.Lemmas.CountIfStructEffects
import Verif.Props.CountIfEffects
import Verif.Props.ForEachStruct

/-!
# C105: side effects and exceptions of the predicate of `count_if` on arrays of structs

`flat xs` is the array `xs` in memory, `members cs` the simdized struct with the structs `cs` in its lanes (`Verif/Spec/Structs.lean`) and
`simdizedP` applies that to a recorded invocation (`Verif/Spec/CountIfStructEffects.lean`).
-/

namespace Vir
open Spec ForEach CountIf ForEachStruct CountIfStruct

variable {σ α : Type} {c : Nat} {e : Env} {A : Nat} {F : Family}

/-- **C105.** `count_if` on an array of structs, with a predicate that has side effects and may throw. Either no invocation throws: then the
predicate has seen every struct once (in order if the loads are ordered), and the result is the number of `true` values in all masks it
returned, if that is representable in `int`. Or one does: then it was the last invocation, the predicate has seen the structs at the
beginning of the array, and the exception leaves the function (unless a counter has overflowed before). In both cases the events are
invocations of the predicate in this order, each in the state the one before left. -/
theorem countIfStruct_effects (hE : StructRange e A) (hF : F.WF c) (hce : e.constEval = false) (hpt : e.strictPtr = false) (zero : α)
    (junk : Nat → α) {hred : List (Outcome Int) → Outcome Int} (hh : SumsLanes e.size hred) (p : STPred σ α c) (s : σ)
    (xs : List (Vector α c)) (hf : e.Fits xs.length) (ha : e.pol.assumeMatchingSize = true → e.size ∣ xs.length) :
    (∃ (s' : σ) (log : List (PEvent (Vector α c))), (∀ ev ∈ log, ev.result.isSome) ∧ (seenP log).Perm xs ∧
      (Ordered F e → seenP log = xs) ∧ TraceSP p s (log.map simdizedP) s' ∧
      countIfStructT e F zero junk hred (loggedSP p) (s, []) (flat xs) =
        if truesP log < 2 ^ 31 then .ok ((s', log.map simdizedP), some (truesP log : Nat)) else .ub .overflow) ∨
    (∃ (s' : σ) (log : List (PEvent (Vector α c))) (last : PEvent (Vector α c)), (∀ ev ∈ log, ev.result.isSome) ∧ last.result = none ∧
      (seenP (log ++ [last])).Perm (xs.take (seenP (log ++ [last])).length) ∧ (Ordered F e → seenP (log ++ [last]) <+: xs) ∧
      TraceSP p s ((log ++ [last]).map simdizedP) s' ∧
      (countIfStructT e F zero junk hred (loggedSP p) (s, []) (flat xs) = .ok ((s', (log ++ [last]).map simdizedP), none) ∨
        (countIfStructT e F zero junk hred (loggedSP p) (s, []) (flat xs) = .ub .overflow ∧ 2 ^ 31 ≤ truesP log))) := by
  have go : ∀ F : Family, F.WF c →
      (∃ (s' : σ) (log : List (PEvent (Vector α c))), (∀ ev ∈ log, ev.result.isSome) ∧ (seenP log).Perm xs ∧
        ((∀ w, 0 < w → ¬ Simdize.Unordered (F.env w)) → seenP log = xs) ∧ TraceSP p s (log.map simdizedP) s' ∧
        countIfStructT e F zero junk hred (loggedSP p) (s, []) (flat xs) =
          if truesP log < 2 ^ 31 then .ok ((s', log.map simdizedP), some (truesP log : Nat)) else .ub .overflow) ∨
      (∃ (s' : σ) (log : List (PEvent (Vector α c))) (last : PEvent (Vector α c)), (∀ ev ∈ log, ev.result.isSome) ∧ last.result = none ∧
        (seenP (log ++ [last])).Perm (xs.take (seenP (log ++ [last])).length) ∧
        ((∀ w, 0 < w → ¬ Simdize.Unordered (F.env w)) → seenP (log ++ [last]) <+: xs) ∧
        TraceSP p s ((log ++ [last]).map simdizedP) s' ∧
        (countIfStructT e F zero junk hred (loggedSP p) (s, []) (flat xs) = .ok ((s', (log ++ [last]).map simdizedP), none) ∨
          (countIfStructT e F zero junk hred (loggedSP p) (s, []) (flat xs) = .ub .overflow ∧ 2 ^ 31 ≤ truesP log))) := by
    intro F hF
    have some_of : ∀ log : List (PEvent (Vector α c)), (∀ ev ∈ log, ev.result.isSome) → ∀ ev ∈ log.map (inLanesP F), ev.result.isSome := by
      intro log h ev hev
      obtain ⟨ev', h', rfl⟩ := List.mem_map.1 hev
      exact h ev' h'
    rw [countIfStructT_eq hE hF hce hpt hred p s xs hf ha]
    rcases countIf_effects hE.wf hce hpt hh (onStructsTP F p) s xs hf (hE.reaches _) ha with
      ⟨s', log, h1, h2, h3, h4⟩ | ⟨s', log, last, h1, h2, h3, h4, h5⟩
    · left
      refine ⟨s', log.map (inLanesP F), some_of log h1, ?_, fun ho => ?_, trace_simd p log s s' h3, ?_⟩
      · rw [← h2]; exact seen_inLanes hF log
      · rw [List.map_congr_left fun ev _ => inLanesP_ordered ho ev, List.map_id', h2]
      · rw [h4, trues_inLanes]
        split
        · simp [simdLog, List.map_map, Function.comp_def]
        · rfl
    · right
      have hp := seen_inLanes hF (log ++ [last])
      have hlast : (log ++ [last]).map (inLanesP F) = log.map (inLanesP F) ++ [inLanesP F last] := by simp
      refine ⟨s', log.map (inLanesP F), inLanesP F last, some_of log h1, h2, ?_, fun ho => ?_, ?_, ?_⟩
      · rw [← hlast, hp.length_eq]
        conv => rhs; rw [← List.prefix_iff_eq_take.1 h3]
        exact hp
      · rw [← hlast, List.map_congr_left fun ev _ => inLanesP_ordered ho ev, List.map_id']
        exact h3
      · rw [← hlast]; exact trace_simd p _ s s' h4
      · rw [trues_inLanes]
        rcases h5 with h5 | ⟨h5, h6⟩
        · left
          rw [h5]
          simp [simdLog, Function.comp_def]
        · right
          exact ⟨by rw [h5]; rfl, h6⟩
  by_cases ho : Ordered F e
  · rw [countIfStructT_tame hE hF hce hpt hred p s xs hf ha]
    rcases go (tame F e.size) (tame_wf hF _) with ⟨s', log, h1, h2, h3, h4⟩ | ⟨s', log, last, h1, h2, h3, h4, h5⟩
    · exact .inl ⟨s', log, h1, h2, fun _ => h3 (tame_ordered ho), h4⟩
    · exact .inr ⟨s', log, last, h1, h2, h3, fun _ => h4 (tame_ordered ho), h5⟩
  · rcases go F hF with ⟨s', log, h1, h2, h3, h4⟩ | ⟨s', log, last, h1, h2, h3, h4, h5⟩
    · exact .inl ⟨s', log, h1, h2, fun h => absurd h ho, h4⟩
    · exact .inr ⟨s', log, last, h1, h2, h3, fun h => absurd h ho, h5⟩

/-- **C105.** If the function returns, no invocation of the predicate has thrown; if an exception leaves it, the last invocation threw it. -/
theorem countIfStruct_propagates (hE : StructRange e A) (hF : F.WF c) (hce : e.constEval = false) (hpt : e.strictPtr = false) (zero : α)
    (junk : Nat → α) {hred : List (Outcome Int) → Outcome Int} (hh : SumsLanes e.size hred) (p : STPred σ α c) (s : σ)
    (xs : List (Vector α c)) (hf : e.Fits xs.length) (ha : e.pol.assumeMatchingSize = true → e.size ∣ xs.length) {s' : σ}
    {log : List (PEvent (List α))} {r : Option Int}
    (h : countIfStructT e F zero junk hred (loggedSP p) (s, []) (flat xs) = .ok ((s', log), r)) :
    r = none ↔ ∃ ev ∈ log, ev.result = none := by
  rcases countIfStruct_effects hE hF hce hpt zero junk hh p s xs hf ha with ⟨s1, l, h1, _, _, _, h3⟩ | ⟨s1, l, last, _, h2, _, _, _, h4 | ⟨h4, _⟩⟩
  · rw [h] at h3
    split at h3
    · cases h3
      simp only [reduceCtorEq, false_iff, not_exists, not_and]
      intro ev hev h0
      obtain ⟨ev', h', rfl⟩ := List.mem_map.1 hev
      have := h1 ev' h'
      rw [show ev'.result = none from h0] at this; exact absurd this (by simp)
    · cases h3
  · rw [h] at h4
    cases h4
    simp only [true_iff]
    exact ⟨simdizedP last, by simp, h2⟩
  · rw [h] at h4; cases h4

private theorem preds_pure (p : SPred α c) (args : List (List (List α))) (s : σ) (n : Counters) :
    CountIfStruct.predsThenInc (pureSP p) args (s, n) = ((s, args.foldl (fun s x => do CountIfStruct.incCountv p x (← s)) n), true) := by
  induction args generalizing n with
  | nil => rfl
  | cons x args ih => simp only [CountIfStruct.predsThenInc, pureSP, List.foldl_cons] at ih ⊢; exact ih _

private theorem foldl_bindS (p : SPred α c) (args : List (List (List α))) (n : Counters) :
    (n >>= fun n => args.foldl (fun s x => do CountIfStruct.incCountv p x (← s)) (.ok n)) =
      args.foldl (fun s x => do CountIfStruct.incCountv p x (← s)) n := by
  cases n with
  | ok n => rfl
  | ub r =>
    simp only [Outcome.bind_ub]
    induction args with
    | nil => rfl
    | cons x args ih => exact ih
  | trap =>
    simp only [Outcome.bind_trap]
    induction args with
    | nil => rfl
    | cons x args ih => exact ih

private theorem lambdaS_pure (hce : e.constEval = false) (ps : Bool) (p : SPred α c) (args : List (List (List α))) (s : σ) (n : Counters) :
    CountIfStruct.lambdaT (pureSP p) args (s, n) = ((s, do CountIfStruct.lambda e ps p args (← n)), true) := by
  unfold CountIfStruct.lambdaT
  split
  · rename_i x
    simp only [pureSP, CountIfStruct.lambda, hce, Bool.and_false, Bool.false_eq_true, if_false]
    rfl
  · rename_i h
    rw [preds_pure, ← foldl_bindS]
    unfold CountIfStruct.lambda
    simp only [hce, Bool.and_false, Bool.false_eq_true, if_false]

/-- **C105.** With a pure predicate this is the `count_if` of C102. -/
theorem countIfStruct_pure (hs : 0 < e.size) (hce : e.constEval = false) (ps : Bool) (hred : List (Outcome Int) → Outcome Int)
    (F : Family) (zero : α) (junk : Nat → α) (p : SPred α c) (s : σ) (mem : List α) (r : Int)
    (h : countIfStruct e F zero junk ps hred p mem = .ok r) : countIfStructT e F zero junk hred (pureSP p) s mem = .ok (s, some r) := by
  have hi : InvSim e.size (S' := TState (σ × Counters) α) (fun st : Counters × List α => .inl ((s, st.1), st.2))
      (ForEachStruct.invoke F zero junk false (CountIfStruct.callable e ps p))
      (ForEachStruct.invokeT F zero junk false (CountIfStruct.callableT (pureSP p))) := by
    intro w aligned k pos st _ _
    obtain ⟨n, mem⟩ := st
    unfold ForEachStruct.invoke ForEachStruct.invokeT
    dsimp only
    cases ForEachStruct.loadAll F zero junk mem w k pos with
    | ub r => trivial
    | trap => trivial
    | ok cs =>
      simp only [Outcome.bind_ok, CountIfStruct.callableT, lambdaS_pure hce ps p]
      rfl
  have hsim := sim_forEach hi hs (mem.length / c) (.ok (0, List.replicate e.size 0), mem)
  unfold countIfStruct ForEachStruct.forEach at h
  unfold countIfStructT ForEachStruct.forEachT
  cases hfe : forEachG e (ForEachStruct.invoke F zero junk false (CountIfStruct.callable e ps p)) (mem.length / c)
      (.ok (0, List.replicate e.size 0), mem) with
  | ub r => rw [hfe] at h; cases h
  | trap => rw [hfe] at h; cases h
  | ok st =>
    rw [hfe] at h hsim
    rw [Sim.of_ok hsim rfl]
    obtain ⟨n, m⟩ := st
    simp only [Outcome.bind_ok] at h ⊢
    cases n with
    | ub r => cases h
    | trap => cases h
    | ok n =>
      obtain ⟨k, v⟩ := n
      simp only [Outcome.bind_ok] at h ⊢
      rw [← Outcome.bind_assoc, h]
      rfl

/-! ### Instances -/

/-- Is the first member even? Throws in call number `n`. -/
def evenThrowsAt (n : Nat) : STPred Nat Nat 3 where
  call s v := (s + 1, if s = n then none else some ((v.headD []).map (· % 2 == 0)))
  shape s v w r h1 h2 hr := by
    dsimp only at hr
    split at hr
    · exact absurd hr (by simp)
    · simp only [Option.some.injEq] at hr
      subst hr
      cases v with
      | nil => simp at h1
      | cons m v => simpa using h2 m (by simp)

-- ten structs, four lanes: first members 0, 3, ..., 27
example : countIfStructT pointEnv4 pointFamily 0 (fun _ => 0) fallbackSum (evenThrowsAt 7) 0 (List.range 30) = .ok (3, some 5) := by decide +kernel
-- the third invocation throws
example : countIfStructT pointEnv4 pointFamily 0 (fun _ => 0) fallbackSum (evenThrowsAt 2) 0 (List.range 30) = .ok (3, none) := by decide +kernel
-- eight lanes, the loads permute them
example : countIfStructT pointEnv pointFamily 0 (fun _ => 0) fallbackSum (evenThrowsAt 7) 0 (List.range 30) = .ok (2, some 5) := by decide +kernel

private theorem ranges : StructRange pointEnv4 4 ∧ StructRange pointEnv 4 :=
  ⟨⟨by decide, by decide, rfl, by decide, by decide, by decide, by decide, ⟨[], by decide⟩⟩,
    ⟨by decide, by decide, rfl, by decide, by decide, by decide, by decide, ⟨[], by decide⟩⟩⟩

private def threePoints : List (Vector Nat 3) := [#v[1, 2, 3], #v[4, 5, 6], #v[7, 8, 9]]

example := countIfStruct_effects ranges.1 pointFamily_wf rfl rfl 0 (fun _ => 0) (fallbackSum_sumsLanes (by decide) (by decide)) (evenThrowsAt 1) 0
  threePoints (by unfold Env.Fits; decide) (by decide)
example := countIfStruct_effects ranges.2 pointFamily_wf rfl rfl 0 (fun _ => 0) (fallbackSum_sumsLanes (by decide) (by decide)) (evenThrowsAt 1) 0
  threePoints (by unfold Env.Fits; decide) (by decide)
example {s' : Nat} {log : List (PEvent (List Nat))} {r : Option Int}
    (h : countIfStructT pointEnv4 pointFamily 0 (fun _ => 0) fallbackSum (loggedSP (evenThrowsAt 1)) (0, []) (flat threePoints) = .ok ((s', log), r)) :
    r = none ↔ ∃ ev ∈ log, ev.result = none :=
  countIfStruct_propagates ranges.1 pointFamily_wf rfl rfl 0 (fun _ => 0) (fallbackSum_sumsLanes (by decide) (by decide)) (evenThrowsAt 1) 0
    threePoints (by unfold Env.Fits; decide) (by decide) h

private def firstEven : SPred Nat 3 where
  call v := (v.headD []).map (· % 2 == 0)
  shape v w h1 h2 := by
    cases v with
    | nil => simp at h1
    | cons m v => simpa using h2 m (by simp)

example : countIfStructT pointEnv4 pointFamily 0 (fun _ => 0) fallbackSum (pureSP firstEven) () (List.range 30) = .ok ((), some 5) :=
  countIfStruct_pure (by decide) rfl true fallbackSum _ _ _ firstEven () _ 5 (by decide +kernel)

end Vir
