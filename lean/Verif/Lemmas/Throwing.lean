import Verif.Spec.Throwing
import Verif.Lemmas.GroupsAligned

/-! Lemmas about `for_each` with callables that may throw. -/

namespace Vir
open Spec ForEach Transform

variable {σ α : Type}

@[simp] theorem visitedT_nil : visitedT ([] : List (TEvent α)) = [] := rfl
@[simp] theorem visitedT_cons (ev : TEvent α) (l : List (TEvent α)) : visitedT (ev :: l) = ev.args.flatten ++ visitedT l := by
  simp [visitedT]
@[simp] theorem visitedT_append (a b : List (TEvent α)) : visitedT (a ++ b) = visitedT a ++ visitedT b := by simp [visitedT]
@[simp] theorem producedT_nil : producedT ([] : List (TEvent α)) = [] := rfl
@[simp] theorem producedT_cons (ev : TEvent α) (l : List (TEvent α)) :
    producedT (ev :: l) = (ev.result.getD []).flatten ++ producedT l := by simp [producedT]

theorem runGroups_thrown {S X : Type} (inv : Group → Nat → S ⊕ X → Outcome (S ⊕ X)) (h : ∀ g p x, inv g p (.inr x) = .ok (.inr x)) (p : Nat)
    (gs : List Group) (x : X) : runGroups inv p gs (.inr x) = .ok (.inr x) := by
  induction gs generalizing p with
  | nil => rfl
  | cons g gs ih => simp [runGroups, h, ih]

theorem flatten_length_of_map {a b : List (List α)} (h : a.map List.length = b.map List.length) :
    a.flatten.length = b.flatten.length := by
  rw [List.length_flatten, List.length_flatten, h]

/-- One invocation. -/
theorem invokeT_eq (e : Env) (wb : Bool) (f : TCallable σ α) (g : Group) (s : σ) (outs rest : List α)
    (hal : g.aligned = true → AlignedSeq e outs.length (List.replicate g.k g.w)) (hn : g.elems ≤ rest.length) :
    ForEach.atPos (invokeT e wb f) g outs.length (.inl (s, outs ++ rest)) =
      match f.call s (chunks g.w g.k rest) with
      | (s', none) => .ok (.inr (s', outs ++ rest))
      | (s', some r) => .ok (.inl (s', outs ++ (if wb then r.flatten else rest.take g.elems) ++ rest.drop g.elems)) := by
  unfold ForEach.atPos invokeT
  have h1 := loadAll_eq e g.aligned g.w g.k outs rest hal hn
  simp only [h1, Outcome.bind_ok]
  have hsh := f.shape s (chunks g.w g.k rest)
  generalize f.call s (chunks g.w g.k rest) = c at hsh
  obtain ⟨s', r⟩ := c
  cases r with
  | none => rfl
  | some r =>
    have hsh := hsh r rfl
    have hlen : r.length = g.k := by
      have := congrArg List.length hsh
      simpa using this
    rw [chunks_map_length _ _ _ hn] at hsh
    cases wb with
    | true =>
      have h2 := storeAll_eq e g.aligned g.w r outs rest (by rw [hlen]; exact hal) (by rw [hlen]; exact hsh) (by rw [hlen]; exact hn)
      simp only [if_true, h2, Outcome.bind_ok]
      rw [hlen]; rfl
    | false => simp

theorem runGroups_invokeT (e : Env) (wb : Bool) (f : TCallable σ α) (gs : List Group) (s : σ) (log : List (TEvent α)) (outs rest : List α)
    (hal : GroupsAligned e outs.length gs) (hn : span gs ≤ rest.length) :
    (∃ s' log' outs', runGroups (ForEach.atPos (invokeT e wb (loggedT f))) outs.length gs (.inl ((s, log), outs ++ rest)) =
        .ok (.inl ((s', log ++ log'), outs ++ outs' ++ rest.drop (span gs))) ∧
      (∀ ev ∈ log', ev.result.isSome) ∧ visitedT log' = rest.take (span gs) ∧
      outs' = if wb then producedT log' else rest.take (span gs)) ∨
    (∃ s' log' last outs', runGroups (ForEach.atPos (invokeT e wb (loggedT f))) outs.length gs (.inl ((s, log), outs ++ rest)) =
        .ok (.inr ((s', log ++ (log' ++ [last])), outs ++ outs' ++ rest.drop (visitedT log').length)) ∧
      (∀ ev ∈ log', ev.result.isSome) ∧ last.result = none ∧ (visitedT (log' ++ [last])) <+: rest ∧
      (visitedT (log' ++ [last])).length ≤ span gs ∧
      outs' = if wb then producedT log' else rest.take (visitedT log').length) := by
  induction gs generalizing s log outs rest with
  | nil =>
    left
    exact ⟨s, [], [], by simp [runGroups], by simp, by simp, by simp⟩
  | cons g gs ih =>
    rw [span_cons] at hn
    have h1 := invokeT_eq e wb (loggedT f) g (s, log) outs rest hal.1 (by omega)
    have hfl : (chunks g.w g.k rest).flatten = rest.take g.elems := chunks_flatten g.w g.k rest
    have hsh := f.shape s (chunks g.w g.k rest)
    simp only [loggedT] at h1
    generalize hc : f.call s (chunks g.w g.k rest) = c at h1 hsh
    obtain ⟨s1, r⟩ := c
    cases r with
    | none =>
      right
      refine ⟨s1, [], ⟨chunks g.w g.k rest, none⟩, [], ?_, by simp, rfl, ?_, ?_, ?_⟩
      · simp only [runGroups]
        dsimp only at h1
        rw [show ForEach.atPos (invokeT e wb (loggedT f)) g outs.length (.inl ((s, log), outs ++ rest)) = _ from h1]
        simp only [Outcome.bind_ok]
        rw [runGroups_thrown (ForEach.atPos (invokeT e wb (loggedT f))) (fun _ _ _ => rfl)]
        simp
      · simp only [List.nil_append, visitedT_cons, visitedT_nil, List.append_nil, hfl]
        exact List.take_prefix _ _
      · simp only [List.nil_append, visitedT_cons, visitedT_nil, List.append_nil, hfl, span_cons, List.length_take]
        omega
      · simp
    | some r =>
      have hrl : r.flatten.length = g.elems := by
        rw [flatten_length_of_map (hsh r rfl), hfl, List.length_take]; omega
      generalize ho : (if wb = true then r.flatten else rest.take g.elems) = o at h1
      have hol : o.length = g.elems := by
        rw [← ho]; split
        · exact hrl
        · rw [List.length_take]; omega
      have hpos : outs.length + g.elems = (outs ++ o).length := by simp [hol]
      have step : runGroups (ForEach.atPos (invokeT e wb (loggedT f))) outs.length (g :: gs) (.inl ((s, log), outs ++ rest)) =
          runGroups (ForEach.atPos (invokeT e wb (loggedT f))) (outs ++ o).length gs
            (.inl ((s1, log ++ [⟨chunks g.w g.k rest, some r⟩]), (outs ++ o) ++ rest.drop g.elems)) := by
        simp only [runGroups]
        dsimp only at h1
        rw [show ForEach.atPos (invokeT e wb (loggedT f)) g outs.length (.inl ((s, log), outs ++ rest)) = _ from h1]
        simp only [Outcome.bind_ok, hpos, ho]
      have hal2 := hal.2
      rw [hpos] at hal2
      rw [step]
      rcases ih s1 (log ++ [⟨chunks g.w g.k rest, some r⟩]) (outs ++ o) (rest.drop g.elems) hal2 (by simp; omega) with
        ⟨s', log', outs', h2, h3, h4, h5⟩ | ⟨s', log', last, outs', h2, h3, h4, h5, h6, h7⟩
      · left
        refine ⟨s', ⟨chunks g.w g.k rest, some r⟩ :: log', o ++ outs', ?_, ?_, ?_, ?_⟩
        · rw [h2]; simp
        · intro ev hev
          rcases List.mem_cons.1 hev with rfl | hev
          · rfl
          · exact h3 ev hev
        · rw [visitedT_cons, hfl, h4, span_cons, List.take_add]
        · rw [← ho, h5, span_cons, List.take_add]
          cases wb <;> simp
      · right
        have hg : (rest.take g.elems).length = g.elems := by rw [List.length_take]; omega
        refine ⟨s', ⟨chunks g.w g.k rest, some r⟩ :: log', last, o ++ outs', ?_, ?_, h4, ?_, ?_, ?_⟩
        · rw [h2]
          simp only [visitedT_cons, hfl, List.length_append, hg, List.drop_drop, List.append_assoc, List.cons_append,
            List.nil_append]
        · intro ev hev
          rcases List.mem_cons.1 hev with rfl | hev
          · rfl
          · exact h3 ev hev
        · rw [List.cons_append, visitedT_cons, hfl]
          obtain ⟨z, hz⟩ := h5
          refine ⟨z, ?_⟩
          rw [List.append_assoc, hz, List.take_append_drop]
        · rw [List.cons_append, visitedT_cons, hfl, List.length_append, hg, span_cons]
          omega
        · rw [← ho, h7, visitedT_cons, hfl, List.length_append, hg, List.take_add]
          cases wb <;> simp

end Vir
