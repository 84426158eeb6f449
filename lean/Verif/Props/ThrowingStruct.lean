import Verif.Lemmas.ThrowingStruct
import Verif.Props.Throwing

/-!
# C103: exceptions of callables of `for_each` on arrays of structs

`flat xs` is the array `xs` in memory, `members cs` the simdized struct with the structs `cs` in its lanes (`Verif/Spec/Structs.lean`) and
`simdized` applies that to a recorded invocation (`Verif/Spec/ThrowingStruct.lean`).
-/

namespace Vir.ForEachStruct
open Vir.ForEach Vir.Spec Vir.Simdize

variable {σ α : Type} {c : Nat} {e : Env} {A : Nat} {F : Family}

/-- **C103.** Either no invocation throws: then all structs have been visited, each once (in the order of the array if the loads are ordered),
and what the callable left in its arguments has been written back piece by piece. Or one does: then it was the last invocation, the visited
structs are those at the beginning of the array, the pieces of all earlier invocations are written back, and the structs of the throwing
invocation and all after it are as before the call. -/
theorem forEachStruct_throwing (hE : StructRange e A) (hF : F.WF c) (hce : e.constEval = false) (hpt : e.strictPtr = false) (zero : α)
    (junk : Nat → α) (wb : Bool) (f : STCallable σ α c) (s : σ) (xs : List (Vector α c)) (hf : e.Fits xs.length)
    (ha : e.pol.assumeMatchingSize = true → e.size ∣ xs.length) :
    (∃ (s' : σ) (log : List (TEvent (Vector α c))),
      forEachT e F zero junk wb (loggedST f) (s, []) (flat xs) =
        .ok (.inl ((s', log.map simdized), flat (if wb then producedT log else xs))) ∧
      (∀ ev ∈ log, ev.result.isSome) ∧ (visitedT log).Perm xs ∧ (Ordered F e → visitedT log = xs)) ∨
    (∃ (s' : σ) (log : List (TEvent (Vector α c))) (last : TEvent (Vector α c)),
      forEachT e F zero junk wb (loggedST f) (s, []) (flat xs) =
        .ok (.inr ((s', (log ++ [last]).map simdized), flat (if wb then producedT log ++ xs.drop (visitedT log).length else xs))) ∧
      (∀ ev ∈ log, ev.result.isSome) ∧ last.result = none ∧
      (visitedT log).Perm (xs.take (visitedT log).length) ∧
      (visitedT (log ++ [last])).Perm (xs.take (visitedT (log ++ [last])).length) ∧
      (Ordered F e → visitedT (log ++ [last]) <+: xs)) := by
  have go : ∀ F : Family, F.WF c →
      (∃ (s' : σ) (log : List (TEvent (Vector α c))),
        forEachT e F zero junk wb (loggedST f) (s, []) (flat xs) =
          .ok (.inl ((s', log.map simdized), flat (if wb then producedT log else xs))) ∧
        (∀ ev ∈ log, ev.result.isSome) ∧ (visitedT log).Perm xs ∧ ((∀ w, 0 < w → ¬ Unordered (F.env w)) → visitedT log = xs)) ∨
      (∃ (s' : σ) (log : List (TEvent (Vector α c))) (last : TEvent (Vector α c)),
        forEachT e F zero junk wb (loggedST f) (s, []) (flat xs) =
          .ok (.inr ((s', (log ++ [last]).map simdized), flat (if wb then producedT log ++ xs.drop (visitedT log).length else xs))) ∧
        (∀ ev ∈ log, ev.result.isSome) ∧ last.result = none ∧
        (visitedT log).Perm (xs.take (visitedT log).length) ∧
        (visitedT (log ++ [last])).Perm (xs.take (visitedT (log ++ [last])).length) ∧
        ((∀ w, 0 < w → ¬ Unordered (F.env w)) → visitedT (log ++ [last]) <+: xs)) := by
    intro F hF
    have hsim := sim_structT (zero := zero) (junk := junk) hF hE.aligned hE.size_pos wb f s xs
    rcases forEach_throwing hE.wf hce hpt wb (onStructsT F zero f) s xs hf (hE.reaches _) ha with
      ⟨s', log, h1, h2, h3⟩ | ⟨s', log, last, h1, h2, h3, h4⟩
    · left
      refine ⟨s', log.map (inLanes F), ?_, ?_, ?_, ?_⟩
      · rw [hsim.of_ok h1, inLanes_produced, List.map_map]
        rfl
      · intro ev hev
        obtain ⟨ev', h, rfl⟩ := List.mem_map.1 hev
        exact h2 ev' h
      · rw [← h3]; exact inLanes_perm hF log
      · intro ho
        rw [List.map_congr_left fun ev _ => inLanes_ordered ho ev, List.map_id', h3]
    · right
      have hp1 := inLanes_perm hF log
      have hp2 := inLanes_perm hF (log ++ [last])
      have hpre : visitedT log <+: xs := List.IsPrefix.trans ⟨visitedT [last], by simp [visitedT]⟩ h4
      have hlast : (log ++ [last]).map (inLanes F) = log.map (inLanes F) ++ [inLanes F last] := by simp
      refine ⟨s', log.map (inLanes F), inLanes F last, ?_, ?_, h3, ?_, ?_, ?_⟩
      · rw [hsim.of_ok h1, inLanes_produced, hp1.length_eq, ← hlast, List.map_map]
        rfl
      · intro ev hev
        obtain ⟨ev', h, rfl⟩ := List.mem_map.1 hev
        exact h2 ev' h
      · rw [hp1.length_eq]
        conv => rhs; rw [← List.prefix_iff_eq_take.1 hpre]
        exact hp1
      · rw [← hlast, hp2.length_eq]
        conv => rhs; rw [← List.prefix_iff_eq_take.1 h4]
        exact hp2
      · intro ho
        rw [← hlast, List.map_congr_left fun ev _ => inLanes_ordered ho ev, List.map_id']
        exact h4
  by_cases ho : Ordered F e
  · have ht := forEachT_tame hE.size_pos F zero junk wb (loggedST f) (s, []) (flat xs)
    rcases go (tame F e.size) (tame_wf hF _) with ⟨s', log, h1, h2, h3, h4⟩ | ⟨s', log, last, h1, h2, h3, h4, h5, h6⟩
    · exact .inl ⟨s', log, ht.of_ok h1, h2, h3, fun _ => h4 (tame_ordered ho)⟩
    · exact .inr ⟨s', log, last, ht.of_ok h1, h2, h3, h4, h5, fun _ => h6 (tame_ordered ho)⟩
  · rcases go F hF with ⟨s', log, h1, h2, h3, h4⟩ | ⟨s', log, last, h1, h2, h3, h4, h5, h6⟩
    · exact .inl ⟨s', log, h1, h2, h3, fun h => absurd h ho⟩
    · exact .inr ⟨s', log, last, h1, h2, h3, h4, h5, fun h => absurd h ho⟩

/-- **C103.** If the algorithm returns normally no invocation has thrown; if an exception leaves the algorithm then the last invocation threw it
and no earlier one. -/
theorem forEachStruct_propagates (hE : StructRange e A) (hF : F.WF c) (hce : e.constEval = false) (hpt : e.strictPtr = false) (zero : α)
    (junk : Nat → α) (wb : Bool) (f : STCallable σ α c) (s : σ) (xs : List (Vector α c)) (hf : e.Fits xs.length)
    (ha : e.pol.assumeMatchingSize = true → e.size ∣ xs.length) :
    (∃ s' mem log, forEachT e F zero junk wb (loggedST f) (s, []) (flat xs) = .ok (.inl ((s', log), mem)) ∧
      ∀ ev ∈ log, ev.result ≠ none) ∨
    (∃ s' mem log last, forEachT e F zero junk wb (loggedST f) (s, []) (flat xs) = .ok (.inr ((s', log ++ [last]), mem)) ∧
      last.result = none ∧ ∀ ev ∈ log, ev.result ≠ none) := by
  have key : ∀ log : List (TEvent (Vector α c)), (∀ ev ∈ log, ev.result.isSome) → ∀ ev ∈ log.map simdized, ev.result ≠ none := by
    intro log h ev hev
    obtain ⟨ev', h', rfl⟩ := List.mem_map.1 hev
    obtain ⟨r, hr⟩ := Option.isSome_iff_exists.1 (h ev' h')
    simp [simdized, hr]
  rcases forEachStruct_throwing hE hF hce hpt zero junk wb f s xs hf ha with ⟨s', log, h1, h2, _⟩ | ⟨s', log, last, h1, h2, h3, _⟩
  · exact .inl ⟨s', _, _, h1, key log h2⟩
  · exact .inr ⟨s', _, log.map simdized, simdized last, by simpa using h1, by simp [simdized, h3], key log h2⟩

/-- **C103.** With a callable that never throws this is the `for_each` of C53. -/
theorem forEachStruct_neverThrows (hs : 0 < e.size) (F : Family) (zero : α) (junk : Nat → α) (wb : Bool) (f : SCallable σ α c) (s : σ)
    (mem : List α) (r : σ × List α) (h : forEach e F zero junk wb f s mem = .ok r) :
    forEachT e F zero junk wb (neverThrowsS f) s mem = .ok (.inl r) := by
  have hi : InvSim e.size (S' := TState σ α) Sum.inl (invoke F zero junk wb f) (invokeT F zero junk wb (neverThrowsS f)) := by
    intro w aligned k pos st _ _
    obtain ⟨s, mem⟩ := st
    unfold invoke invokeT
    dsimp only
    cases loadAll F zero junk mem w k pos with
    | ub r => trivial
    | trap => trivial
    | ok cs =>
      simp only [Outcome.bind_ok, neverThrowsS]
      cases wb with
      | false => rfl
      | true =>
        simp only [if_true]
        cases storeAll F junk w (f.call s cs).2 pos mem <;> first | rfl | trivial
  exact (sim_forEach hi hs (mem.length / c) (s, mem)).of_ok h

/-! ### Instances -/

/-- Adds 100 to every member; throws in call number `n`. -/
def throwsAt (n : Nat) : STCallable Nat Nat 3 where
  call s vs := (s + 1, if s = n then none else some (vs.map fun v => v.map fun m => m.map (· + 100)))
  shape s vs w r h hr := by
    dsimp only at hr
    split at hr
    · exact absurd hr (by simp)
    · simp only [Option.some.injEq] at hr
      subst hr
      refine ⟨by simp, fun v hv => ?_⟩
      obtain ⟨v', hv', rfl⟩ := List.mem_map.1 hv
      refine ⟨by simpa using (h v' hv').1, fun m hm => ?_⟩
      obtain ⟨m', hm', rfl⟩ := List.mem_map.1 hm
      simpa using (h v' hv').2 m' hm'

private instance : DecidableEq (TEvent (List Nat)) := inferInstance

-- ten structs, four lanes: the second invocation throws, the first four structs are written back
example : forEachT pointEnv4 pointFamily 0 (fun _ => 0) true (throwsAt 1) 0 (List.range 30) =
    .ok (.inr (2, (List.range 12).map (· + 100) ++ (List.range 30).drop 12)) := by decide +kernel

-- the third invocation (with two structs) throws
set_option synthInstance.maxSize 1024 in
example : forEachT pointEnv4 pointFamily 0 (fun _ => 0) true (loggedST (throwsAt 2)) (0, []) (List.range 30) =
    .ok (.inr ((3, [⟨[[[0, 3, 6, 9], [1, 4, 7, 10], [2, 5, 8, 11]]], some [[[100, 103, 106, 109], [101, 104, 107, 110], [102, 105, 108, 111]]]⟩,
      ⟨[[[12, 15, 18, 21], [13, 16, 19, 22], [14, 17, 20, 23]]],
        some [[[112, 115, 118, 121], [113, 116, 119, 122], [114, 117, 120, 123]]]⟩,
      ⟨[[[24, 27], [25, 28], [26, 29]]], none⟩]), (List.range 24).map (· + 100) ++ (List.range 30).drop 24)) := by
  decide +kernel

-- no invocation throws
example : forEachT pointEnv4 pointFamily 0 (fun _ => 0) true (throwsAt 7) 0 (List.range 30) =
    .ok (.inl (3, (List.range 30).map (· + 100))) := by decide +kernel

private theorem ranges : StructRange pointEnv4 4 ∧ StructRange pointEnv 4 :=
  ⟨⟨by decide, by decide, rfl, by decide, by decide, by decide, by decide, ⟨[], by decide⟩⟩,
    ⟨by decide, by decide, rfl, by decide, by decide, by decide, by decide, ⟨[], by decide⟩⟩⟩

private def threePoints : List (Vector Nat 3) := [#v[1, 2, 3], #v[4, 5, 6], #v[7, 8, 9]]

example := forEachStruct_throwing ranges.1 pointFamily_wf rfl rfl 0 (fun _ => 0) true (throwsAt 1) 0 threePoints (by unfold Env.Fits; decide)
  (by decide)
example := forEachStruct_throwing ranges.2 pointFamily_wf rfl rfl 0 (fun _ => 0) true (throwsAt 0) 0 threePoints (by unfold Env.Fits; decide)
  (by decide)
example := forEachStruct_propagates ranges.1 pointFamily_wf rfl rfl 0 (fun _ => 0) true (throwsAt 1) 0 threePoints (by unfold Env.Fits; decide)
  (by decide)
example := forEachStruct_neverThrows (e := pointEnv4) (by decide) pointFamily 0 (fun _ => 0) true nop () (List.range 30) ((), List.range 30)
  (by decide +kernel)

end Vir.ForEachStruct
