import Verif.Spec.CountIfEffects
import Verif.Lemmas.Throwing
import Verif.Props.CountIf
import Verif.Props.ForEach

/-!
# C68: side effects and exceptions of the predicate of `count_if`
-/

namespace Vir
open Spec ForEach CountIf Transform

variable {σ α : Type}

namespace CountIf

/-- A predicate that returns the mask `k` for arguments of its width. -/
private def constPred (k : List Bool) : Pred α where
  call x := if x.length = k.length then k else x.map fun _ => false
  shape x := by
    split
    · rename_i h; exact h.symm
    · simp

private theorem J_incMaskv {sz : Nat} (k : List Bool) {st : Counters} {T : Nat} (hk : k.length = sz) (h : J sz st T) :
    J sz (st >>= incMaskv k) (T + k.count true) := by
  rcases h with ⟨c, v, rfl, h⟩ | ⟨rfl, h⟩
  · have := J_incCountv (constPred k) (x := k) hk (Or.inl ⟨c, v, rfl, h⟩ : J sz (.ok (c, v)) T)
    simpa [constPred, incCountv, incMaskv] using this
  · exact Or.inr ⟨rfl, by omega⟩

private theorem J_incMask {sz : Nat} (k : List Bool) {c : Int} {v : List Int} {T : Nat} (hk : k ≠ []) (h : J sz (.ok (c, v)) T) :
    J sz (incMask k (c, v)) (T + k.count true) := by
  have := J_incCount (constPred k) (x := k) hk h
  simpa [constPred, incCount, incMask] using this

private theorem J_single {sz w : Nat} (k : List Bool) {st : Counters} {T : Nat} (hk : k.length = w) (hw : 0 < w) (h : J sz st T) :
    J sz (st >>= fun c => if w = c.2.length then incMaskv k c else incMask k c) (T + k.count true) := by
  rcases h with ⟨c, v, rfl, h⟩ | ⟨rfl, h⟩
  · have hJ : J sz (.ok (c, v)) T := Or.inl ⟨c, v, rfl, h⟩
    have hv : v.length = sz := h.2.2.1
    simp only [Outcome.bind_ok, hv]
    split
    · rename_i hws
      exact J_incMaskv k (hk.trans hws) hJ
    · exact J_incMask k (by rintro rfl; simp at hk; omega) hJ
  · exact Or.inr ⟨rfl, by omega⟩

/-- What a part of the run has done: either every predicate call returned, or the last one threw. -/
private def Step (p : TPred σ α) (s : σ) (sz : Nat) (xs : List (List α)) (log : List (PEvent α)) (T : Nat) (r : ((σ × List (PEvent α)) × Counters) × Bool) : Prop :=
  (r.2 = true ∧ ∃ log', r.1.1.2 = log ++ log' ∧ (∀ ev ∈ log', ev.result.isSome) ∧ log'.map (·.arg) = xs ∧ J sz r.1.2 (T + truesP log') ∧
    TraceP p s log' r.1.1.1) ∨
  (r.2 = false ∧ ∃ log' last, r.1.1.2 = log ++ (log' ++ [last]) ∧ (∀ ev ∈ log', ev.result.isSome) ∧ last.result = none ∧
    (log' ++ [last]).map (·.arg) <+: xs ∧ J sz r.1.2 (T + truesP log') ∧ TraceP p s (log' ++ [last]) r.1.1.1)

private theorem truesP_cons (ev : PEvent α) (l : List (PEvent α)) :
    truesP (ev :: l) = (ev.result.getD []).count true + truesP l := by simp [truesP]

private theorem step_preds {sz : Nat} (p : TPred σ α) : ∀ (xs : List (List α)) (s : σ) (log : List (PEvent α)) (c : Counters) (T : Nat),
    (∀ x ∈ xs, x.length = sz) → J sz c T → Step p s sz xs log T (predsThenInc (loggedP p) xs ((s, log), c))
  | [], s, log, c, T, _, h => Or.inl ⟨rfl, [], by simp [predsThenInc], by simp, rfl, by simpa [predsThenInc, truesP] using h, rfl⟩
  | x :: xs, s, log, c, T, hx, h => by
    have hsh := p.shape s x
    unfold predsThenInc
    simp only [loggedP]
    generalize hc : p.call s x = r at hsh
    obtain ⟨s', r⟩ := r
    cases r with
    | none =>
      right
      refine ⟨rfl, [], ⟨x, none⟩, by simp, by simp, rfl, ?_, by simpa [truesP] using h, by simp [TraceP, hc]⟩
      simp
    | some k =>
      have hk : k.length = sz := (hsh k rfl).trans (hx x (by simp))
      have ih := step_preds p xs s' (log ++ [⟨x, some k⟩]) (c >>= incMaskv k) (T + k.count true) (fun y hy => hx y (by simp [hy]))
        (J_incMaskv k hk h)
      rcases ih with ⟨h1, log', h2, h3, h4, h5, h7⟩ | ⟨h1, log', last, h2, h3, h4, h5, h6, h7⟩
      · left
        refine ⟨h1, ⟨x, some k⟩ :: log', by simpa [loggedP] using h2, ?_, by simp [h4], ?_, by rw [TraceP, hc]; exact ⟨rfl, h7⟩⟩
        · intro ev hev
          rcases List.mem_cons.1 hev with rfl | hev
          · rfl
          · exact h3 ev hev
        · rw [truesP_cons, ← Nat.add_assoc]; exact h5
      · right
        refine ⟨h1, ⟨x, some k⟩ :: log', last, by simpa [loggedP] using h2, ?_, h4, ?_, ?_, by rw [List.cons_append, TraceP, hc]; exact ⟨rfl, h7⟩⟩
        · intro ev hev
          rcases List.mem_cons.1 hev with rfl | hev
          · rfl
          · exact h3 ev hev
        · simpa using h5
        · rw [truesP_cons, ← Nat.add_assoc]; exact h6

private theorem step_lambda {sz : Nat} (p : TPred σ α) (xs : List (List α)) (s : σ) (log : List (PEvent α)) (c : Counters) (T : Nat)
    (hx : (∃ x, xs = [x] ∧ x ≠ []) ∨ ∀ x ∈ xs, x.length = sz) (h : J sz c T) :
    Step p s sz xs log T (lambdaT (loggedP p) xs ((s, log), c)) := by
  by_cases hone : ∃ x, xs = [x] ∧ x ≠ []
  · obtain ⟨x, rfl, hne⟩ := hone
    have hsh := p.shape s x
    unfold lambdaT
    simp only [loggedP]
    generalize hc : p.call s x = r at hsh
    obtain ⟨s', r⟩ := r
    cases r with
    | none =>
      right
      exact ⟨rfl, [], ⟨x, none⟩, by simp, by simp, rfl, by simp, by simpa [truesP] using h, by simp [TraceP, hc]⟩
    | some k =>
      left
      refine ⟨rfl, [⟨x, some k⟩], by simp, by simp, rfl, ?_, by simp [TraceP, hc]⟩
      have := J_single k (hsh k rfl) (List.length_pos_iff.2 hne) h
      simpa [truesP] using this
  · have hall : ∀ x ∈ xs, x.length = sz := hx.resolve_left hone
    match xs, hone with
    | [], _ => exact step_preds p [] s log c T (by simp) h
    | [x], hone =>
      -- a single empty argument
      have hxe : x = [] := Classical.byContradiction fun hne => hone ⟨x, rfl, hne⟩
      subst hxe
      have h0 : sz = 0 := by simpa using (hall [] (by simp)).symm
      subst h0
      have hsh := p.shape s []
      unfold lambdaT
      simp only [loggedP]
      generalize hc : p.call s [] = r at hsh
      obtain ⟨s', r⟩ := r
      cases r with
      | none =>
        right
        exact ⟨rfl, [], ⟨[], none⟩, by simp, by simp, rfl, by simp, by simpa [truesP] using h, by simp [TraceP, hc]⟩
      | some k =>
        left
        refine ⟨rfl, [⟨[], some k⟩], by simp, by simp, rfl, ?_, by simp [TraceP, hc]⟩
        have hk : k = [] := by simpa using hsh k rfl
        subst hk
        rcases h with ⟨c, v, rfl, h⟩ | ⟨rfl, h⟩
        · have hv : v = [] := by simpa using h.2.2.1
          subst hv
          have := J_incMaskv (sz := 0) [] rfl (Or.inl ⟨c, [], rfl, h⟩ : J 0 (.ok (c, [])) T)
          simpa [truesP] using this
        · exact Or.inr ⟨rfl, by simpa [truesP] using h⟩
    | x :: y :: xs, _ => exact step_preds p (x :: y :: xs) s log c T hall h

theorem TraceP.append (p : TPred σ α) : ∀ (l l' : List (PEvent α)) (s s1 s2 : σ), TraceP p s l s1 → TraceP p s1 l' s2 → TraceP p s (l ++ l') s2
  | [], _, s, s1, _, h, h' => by cases h; exact h'
  | ev :: l, l', s, s1, s2, h, h' => ⟨h.1, TraceP.append p l l' _ s1 s2 h.2 h'⟩

private theorem seen_append (a b : List (PEvent α)) : seenP (a ++ b) = seenP a ++ seenP b := by simp [seenP]

private theorem truesP_append (a b : List (PEvent α)) : truesP (a ++ b) = truesP a + truesP b := by simp [truesP]

private theorem flatten_prefix {xs ys : List (List α)} (h : xs <+: ys) : xs.flatten <+: ys.flatten := by
  obtain ⟨z, rfl⟩ := h
  exact ⟨z.flatten, by simp⟩

private theorem run_groups (e : Env) (p : TPred σ α) : ∀ (gs : List Group) (s : σ) (log : List (PEvent α)) (c : Counters) (T : Nat)
    (outs rest : List α), GroupsAligned e outs.length gs → span gs ≤ rest.length →
    (∀ g ∈ gs, 0 < g.w ∧ (g.k = 1 ∨ g.w = e.size)) → J e.size c T →
    (∃ s' log' c', runGroups (ForEach.atPos (invokeT e false (callableT (loggedP p)))) outs.length gs
        (.inl (((s, log), c), outs ++ rest)) = .ok (.inl (((s', log ++ log'), c'), outs ++ rest)) ∧
      (∀ ev ∈ log', ev.result.isSome) ∧ seenP log' = rest.take (span gs) ∧ J e.size c' (T + truesP log') ∧
      TraceP p s log' s') ∨
    (∃ s' log' last c', runGroups (ForEach.atPos (invokeT e false (callableT (loggedP p)))) outs.length gs
        (.inl (((s, log), c), outs ++ rest)) = .ok (.inr (((s', log ++ (log' ++ [last])), c'), outs ++ rest)) ∧
      (∀ ev ∈ log', ev.result.isSome) ∧ last.result = none ∧ seenP (log' ++ [last]) <+: rest ∧ J e.size c' (T + truesP log') ∧
      TraceP p s (log' ++ [last]) s')
  | [], s, log, c, T, outs, rest, _, _, _, h =>
    Or.inl ⟨s, [], c, by simp [runGroups], by simp, by simp [seenP, span], by simpa [truesP] using h, rfl⟩
  | g :: gs, s, log, c, T, outs, rest, hal, hn, hg, h => by
    have hsp : span (g :: gs) = g.elems + span gs := by simp [span]
    rw [hsp] at hn
    have h1 := invokeT_eq e false (callableT (loggedP p)) g ((s, log), c) outs rest hal.1 (by omega)
    have hfl : (chunks g.w g.k rest).flatten = rest.take g.elems := chunks_flatten g.w g.k rest
    have hlen := chunks_map_length g.w g.k rest (by unfold Group.elems at hn; omega)
    have hargs : (∃ x, chunks g.w g.k rest = [x] ∧ x ≠ []) ∨ ∀ x ∈ chunks g.w g.k rest, x.length = e.size := by
      obtain ⟨hw, hk⟩ := hg g (by simp)
      rcases hk with hk | hk
      · left
        rw [hk] at hlen ⊢
        refine ⟨rest.take g.w, rfl, ?_⟩
        intro h0
        simp [chunks, h0] at hlen
        omega
      · right
        intro x hx
        have : x.length ∈ (chunks g.w g.k rest).map List.length := List.mem_map_of_mem hx
        rw [hlen] at this
        rw [(List.mem_replicate.1 this).2, hk]
    have hst := step_lambda p (chunks g.w g.k rest) s log c T hargs h
    simp only [callableT] at h1
    generalize lambdaT (loggedP p) (chunks g.w g.k rest) ((s, log), c) = r at h1 hst
    obtain ⟨⟨⟨s1, log1⟩, c1⟩, b⟩ := r
    rcases hst with ⟨hb, log', h2, h3, h4, h5, h7⟩ | ⟨hb, log', last, h2, h3, h4, h5, h6, h7⟩
    · dsimp only at hb h2 h5 h7
      subst hb h2
      have hpos : outs.length + g.elems = (outs ++ rest.take g.elems).length := by
        simp; omega
      have hsplit : outs ++ rest = (outs ++ rest.take g.elems) ++ rest.drop g.elems := by simp
      have step : runGroups (ForEach.atPos (invokeT e false (callableT (loggedP p)))) outs.length (g :: gs)
            (.inl (((s, log), c), outs ++ rest)) =
          runGroups (ForEach.atPos (invokeT e false (callableT (loggedP p)))) (outs ++ rest.take g.elems).length gs
            (.inl (((s1, log ++ log'), c1), (outs ++ rest.take g.elems) ++ rest.drop g.elems)) := by
        simp only [runGroups]
        rw [show ForEach.atPos (invokeT e false (callableT (loggedP p))) g outs.length (.inl (((s, log), c), outs ++ rest)) = _
          from h1]
        simp [hpos]
      have hal2 := hal.2
      rw [hpos] at hal2
      have ih := run_groups e p gs s1 (log ++ log') c1 (T + truesP log') (outs ++ rest.take g.elems) (rest.drop g.elems) hal2
        (by simp; omega) (fun g' hg' => hg g' (by simp [hg'])) h5
      have hseen : seenP log' = rest.take g.elems := by rw [seenP, h4, hfl]
      rw [step]
      rcases ih with ⟨s', l2, c2, i1, i2, i3, i4, i7⟩ | ⟨s', l2, last, c2, i1, i2, i3, i4, i5, i7⟩
      · left
        refine ⟨s', log' ++ l2, c2, ?_, ?_, ?_, ?_, TraceP.append p _ _ _ _ _ h7 i7⟩
        · rw [i1, ← hsplit, List.append_assoc]
        · intro ev hev
          rcases List.mem_append.1 hev with hev | hev
          · exact h3 ev hev
          · exact i2 ev hev
        · rw [seen_append, hseen, i3, hsp, List.take_add]
        · rw [truesP_append, ← Nat.add_assoc]; exact i4
      · right
        refine ⟨s', log' ++ l2, last, c2, ?_, ?_, i3, ?_, ?_, by rw [List.append_assoc]; exact TraceP.append p _ _ _ _ _ h7 i7⟩
        · rw [i1, ← hsplit]; simp
        · intro ev hev
          rcases List.mem_append.1 hev with hev | hev
          · exact h3 ev hev
          · exact i2 ev hev
        · rw [List.append_assoc, seen_append, hseen]
          obtain ⟨z, hz⟩ := i4
          exact ⟨z, by rw [List.append_assoc, hz, List.take_append_drop]⟩
        · rw [truesP_append, ← Nat.add_assoc]; exact i5
    · dsimp only at hb h2 h6 h7
      subst hb h2
      right
      refine ⟨s1, log', last, c1, ?_, h3, h4, ?_, h6, h7⟩
      · simp only [runGroups]
        rw [show ForEach.atPos (invokeT e false (callableT (loggedP p))) g outs.length (.inl (((s, log), c), outs ++ rest)) = _
          from h1]
        simp only [Bool.false_eq_true, if_false, Outcome.bind_ok]
        rw [runGroups_thrown (ForEach.atPos (invokeT e false (callableT (loggedP p)))) (fun _ _ _ => rfl)]
      · have := flatten_prefix h5
        rw [hfl] at this
        exact this.trans (List.take_prefix _ _)

private theorem groups_ok {e : Env} (hs : 0 < e.size) (n : Nat) : ∀ g ∈ groupsOf e n, 0 < g.w ∧ (g.k = 1 ∨ g.w = e.size) := by
  intro g hg
  unfold groupsOf at hg
  split at hg
  · simp at hg
  · simp only [List.mem_append, List.mem_replicate, chunked, List.mem_map] at hg
    rcases hg with ⟨w, hw, rfl⟩ | ⟨_, rfl⟩ | ⟨_, rfl⟩ | ⟨w, hw, rfl⟩
    · exact ⟨mem_bitsAsc_pos hw, Or.inl rfl⟩
    · exact ⟨hs, Or.inr rfl⟩
    · exact ⟨hs, Or.inr rfl⟩
    · exact ⟨mem_bitsDesc_pos hw, Or.inl rfl⟩

end CountIf

/-- **C68.** `count_if` with a predicate that has side effects and may throw. Either no invocation throws: then the predicate has
seen every element once, in order, and the result is the number of `true` values in all masks it returned, if that is
representable in `int`. Or one does: then it was the last invocation, the predicate has seen a prefix of the range, and the
exception leaves the function (unless a counter has overflowed before). In both cases the events are invocations of the predicate in this
order, each in the state the one before left. -/
theorem countIf_effects {e : Env} (wf : e.WF) (hce : e.constEval = false) (hpt : e.strictPtr = false)
    {hred : List (Outcome Int) → Outcome Int} (hh : SumsLanes e.size hred) (p : TPred σ α) (s : σ) (xs : List α)
    (hf : e.Fits xs.length) (hr : ReachesAlignment e xs.length) (ha : e.pol.assumeMatchingSize = true → e.size ∣ xs.length) :
    (∃ s' log, (∀ ev ∈ log, ev.result.isSome) ∧ seenP log = xs ∧ TraceP p s log s' ∧
      countIfT e hred (loggedP p) (s, []) xs =
        if truesP log < 2 ^ 31 then .ok ((s', log), some (truesP log : Nat)) else .ub .overflow) ∨
    (∃ s' log last, (∀ ev ∈ log, ev.result.isSome) ∧ last.result = none ∧ seenP (log ++ [last]) <+: xs ∧
      TraceP p s (log ++ [last]) s' ∧
      (countIfT e hred (loggedP p) (s, []) xs = .ok ((s', log ++ [last]), none) ∨
        (countIfT e hred (loggedP p) (s, []) xs = .ub .overflow ∧ 2 ^ 31 ≤ truesP log))) := by
  have hp := (reaches_iff wf).1 hr
  have htr := forEachG_trace wf hce hf hp (by simp [hpt]) ha (invokeT e false (callableT (loggedP p)))
    (.inl (((s, []), .ok (0, List.replicate e.size 0)), xs))
  have hspan := groupsOf_span hp
  have hrun := run_groups e p (groupsOf e xs.length) s [] _ 0 [] xs (groupsOf_aligned wf hp) (by omega)
    (groups_ok wf.size_pos xs.length) (J_init e.size)
  simp only [List.nil_append, List.length_nil, hspan, ← htr, Nat.zero_add] at hrun
  rcases hrun with ⟨s', log, c, h1, h2, h3, h4, h7⟩ | ⟨s', log, last, c, h1, h2, h3, h4, h5, h7⟩
  · left
    refine ⟨s', log, h2, by simpa using h3, h7, ?_⟩
    have hfin := final_sum hh h4
    unfold countIfT forEachT
    rw [h1]
    simp only [Outcome.bind_ok]
    rcases h4 with ⟨n, v, rfl, _⟩ | ⟨rfl, h4⟩
    · simp only [Outcome.bind_ok] at hfin ⊢
      rw [← Outcome.bind_assoc, hfin]
      split <;> rfl
    · rw [if_neg (by omega)]; rfl
  · right
    refine ⟨s', log, last, h2, h3, h4, h7, ?_⟩
    unfold countIfT forEachT
    rw [h1]
    simp only [Outcome.bind_ok]
    rcases h5 with ⟨n, v, rfl, _⟩ | ⟨rfl, h5⟩
    · exact Or.inl rfl
    · exact Or.inr ⟨rfl, h5⟩

/-- **C68.** If the function returns, no invocation of the predicate has thrown; if an exception leaves it, the last invocation threw
it and no other one did. -/
theorem countIf_propagates {e : Env} (wf : e.WF) (hce : e.constEval = false) (hpt : e.strictPtr = false)
    {hred : List (Outcome Int) → Outcome Int} (hh : SumsLanes e.size hred) (p : TPred σ α) (s : σ) (xs : List α)
    (hf : e.Fits xs.length) (hr : ReachesAlignment e xs.length) (ha : e.pol.assumeMatchingSize = true → e.size ∣ xs.length)
    {s' : σ} {log : List (PEvent α)} {r : Option Int} (h : countIfT e hred (loggedP p) (s, []) xs = .ok ((s', log), r)) :
    r = none ↔ ∃ ev ∈ log, ev.result = none := by
  rcases countIf_effects wf hce hpt hh p s xs hf hr ha with ⟨s1, l, h1, _, _, h3⟩ | ⟨s1, l, last, _, h2, _, _, h4 | ⟨h4, _⟩⟩
  · rw [h] at h3
    split at h3
    · cases h3
      simp only [reduceCtorEq, false_iff, not_exists, not_and]
      intro ev hev h0
      have := h1 ev hev
      rw [h0] at this; exact absurd this (by simp)
    · cases h3
  · rw [h] at h4
    cases h4
    simp only [true_iff]
    exact ⟨last, by simp, h2⟩
  · rw [h] at h4; cases h4

private theorem predsThenInc_pure (p : Pred α) (args : List (List α)) (s : σ) (c : Counters) :
    predsThenInc (pureP p) args (s, c) = ((s, args.foldl (fun s x => do incCountv p x (← s)) c), true) := by
  induction args generalizing c with
  | nil => rfl
  | cons x args ih => simp only [predsThenInc, pureP, List.foldl_cons] at ih ⊢; exact ih _

private theorem foldl_bind (p : Pred α) (args : List (List α)) (c : Counters) :
    (c >>= fun c => args.foldl (fun s x => do incCountv p x (← s)) (.ok c)) = args.foldl (fun s x => do incCountv p x (← s)) c := by
  cases c with
  | ok c => rfl
  | ub r =>
    simp only [Outcome.bind_ub]
    induction args with
    | nil => rfl
    | cons x args ih => exact ih
  | trap =>
    simp only [Outcome.bind_trap]
    induction args with
    | nil => rfl
    | cons x args ih => exact ih

private theorem lambdaT_pure {e : Env} (hce : e.constEval = false) (ps : Bool) (p : Pred α) (args : List (List α)) (s : σ) (c : Counters) :
    lambdaT (pureP p) args (s, c) = ((s, do lambda e ps p args (← c)), true) := by
  unfold lambdaT
  split
  · rename_i x
    simp only [pureP, lambda, hce, Bool.and_false, Bool.false_eq_true, if_false]
    rfl
  · rename_i h
    rw [predsThenInc_pure, ← foldl_bind]
    unfold lambda
    simp only [hce, Bool.and_false, Bool.false_eq_true, if_false]

/-- **C68.** With a pure predicate this is the `count_if` of C19: whenever that is defined, so is this one, with the same result. -/
theorem countIf_pure {e : Env} (hs : 0 < e.size) (hce : e.constEval = false) (ps : Bool) (hred : List (Outcome Int) → Outcome Int)
    (p : Pred α) (s : σ) (xs : List α) (r : Int) (h : countIf e ps hred p xs = .ok r) :
    countIfT e hred (pureP p) s xs = .ok (s, some r) := by
  have hi : InvSim e.size (S' := TState (σ × Counters) α) (fun st : Counters × List α => .inl ((s, st.1), st.2))
      (ForEach.loadAndInvoke e false (callable e ps p)) (invokeT e false (callableT (pureP p))) := by
    intro w aligned k pos st _ _
    obtain ⟨c, mem⟩ := st
    unfold ForEach.loadAndInvoke invokeT
    dsimp only
    cases loadAll e mem aligned w k pos with
    | ub r => trivial
    | trap => trivial
    | ok cs =>
      simp only [Outcome.bind_ok, callableT, lambdaT_pure hce ps p]
      rfl
  have hsim := sim_forEach hi hs xs.length (.ok (0, List.replicate e.size 0), xs)
  rw [← forEach_eq_forEachG] at hsim
  unfold countIf at h
  unfold countIfT forEachT
  cases hfe : forEach e false (callable e ps p) (.ok (0, List.replicate e.size 0)) xs with
  | ub r => rw [hfe] at h; cases h
  | trap => rw [hfe] at h; cases h
  | ok st =>
    rw [hfe] at h hsim
    rw [Sim.of_ok hsim rfl]
    obtain ⟨c, m⟩ := st
    simp only [Outcome.bind_ok] at h ⊢
    cases c with
    | ub r => cases h
    | trap => cases h
    | ok c =>
      obtain ⟨n, v⟩ := c
      simp only [Outcome.bind_ok] at h ⊢
      rw [← Outcome.bind_assoc, h]
      rfl

private def exEvens : TPred Nat Nat where
  call s x := if s = 3 then (s, none) else (s + 1, some (x.map (· % 2 == 0)))
  shape s x r h := by
    split at h
    · cases h
    · simp only [Option.some.injEq] at h; rw [← h]; simp

-- the hypotheses are met; the fourth invocation throws
example (s : Nat) (l : List (PEvent Nat)) (r : Option Int)
    (h : countIfT exampleEnv fallbackSum (loggedP exEvens) (0, []) (List.range 23) = .ok ((s, l), r)) :
    r = none ↔ ∃ ev ∈ l, ev.result = none :=
  countIf_propagates exampleEnv_wf rfl rfl (fallbackSum_sumsLanes (by decide) (by decide)) exEvens 0
    (List.range 23) (by unfold Env.Fits; decide) (fun _ _ _ _ => Or.inr ⟨3, by decide, by decide⟩) (by intro h; revert h; decide) h
-- computed from the model, without the theorem
example : countIfT exampleEnv fallbackSum exEvens 0 (List.range 23) = .ok (3, none) := by decide +kernel
example : (countIfT exampleEnv fallbackSum exEvens 4 (List.range 23) >>= fun r => .ok r.2) = .ok (some 12) := by decide +kernel

example : countIfT exampleEnv fallbackSum (pureP (⟨fun x => x.map (· % 3 == 0), by simp⟩ : Pred Nat)) () (List.range 23) = .ok ((), some 8) :=
  countIf_pure (by decide) rfl true fallbackSum _ () _ 8 (by decide +kernel)

/-! ## The theorems applied to concrete data -/

example := countIf_effects exampleEnv_wf rfl rfl (fallbackSum_sumsLanes (by decide) (by decide)) exEvens 0
  (List.range 23) (by unfold Env.Fits; decide) (fun _ _ _ _ => Or.inr ⟨3, by decide, by decide⟩) (by intro h; revert h; decide)

end Vir
