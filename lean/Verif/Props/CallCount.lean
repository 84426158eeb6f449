import Verif.Lemmas.CallCount
import Verif.Props.Throwing
import Verif.Props.CountIfEffects
import Verif.Props.ReduceEffects

/-!
# C81: how often the algorithms invoke the callable

An algorithm over `n` elements with simd objects of `size ≤ 2^j` lanes passes at most `n / size + 2j` simd objects to the
callable, whatever the alignment of the range: `j` are for the unaligned start and `j` for the remaining elements.
-/

namespace Vir
open Spec ForEach Transform TransformReduce

variable {σ α β τ : Type}

private theorem sum_const_one (gs : List Group) : (gs.map fun _ => 1).sum = gs.length := by
  induction gs with
  | nil => rfl
  | cons g gs ih => simp only [List.map_cons, List.sum_cons, List.length_cons, ih]; omega

theorem forEachT_chunks {e : Env} (wf : e.WF) (hce : e.constEval = false) (hpt : e.strictPtr = false)
    (wb : Bool) (f : TCallable σ α) (s : σ) (xs : List α) (hf : e.Fits xs.length)
    (hr : ReachesAlignment e xs.length) (ha : e.pol.assumeMatchingSize = true → e.size ∣ xs.length) :
    ∃ r : TState (σ × List (TEvent α)) α, forEachT e wb (loggedT f) (s, []) xs = .ok r ∧
      simdArguments (recordOf r) ≤ chunkCount (groupsOf e xs.length) ∧
      (recordOf r).length ≤ (groupsOf e xs.length).length := by
  obtain ⟨r, h, _⟩ := forEach_propagates wf hce hpt wb f s xs hf hr ha
  refine ⟨r, h, ?_⟩
  have hp := (reaches_iff wf).1 hr
  have htr := forEachG_trace wf hce hf hp (by simp [hpt]) ha (invokeT e wb (loggedT f)) (.inl ((s, []), xs))
  unfold forEachT at h
  rw [htr] at h
  have h1 := runGroups_cost _ (fun st => simdArguments (recordOf st)) Group.k (by
    intro g p st st' hi
    rcases invokeT_log _ _ _ _ _ _ _ _ _ hi with h | ⟨ev, h, hk⟩
    · rw [h]; omega
    · simp [h, simdArguments, hk]) _ _ _ _ h
  have h2 := runGroups_cost _ (fun st => (recordOf st).length) (fun _ => 1) (by
    intro g p st st' hi
    rcases invokeT_log _ _ _ _ _ _ _ _ _ hi with h | ⟨ev, h, hk⟩
    · rw [h]; omega
    · simp [h]) _ _ _ _ h
  rw [sum_const_one] at h2
  simp only [recordOf, Sum.elim_inl, simdArguments, List.map_nil, List.sum_nil, List.length_nil, Nat.zero_add] at h1 h2
  exact ⟨h1, h2⟩

/-- **C81 (`for_each`).** The callable gets at most `n / size + 2j` simd objects. With `unroll_by<U>` it is invoked at most
`n / (size * U) + (U - 1) + 2j` times. This holds also if it throws. -/
theorem forEach_call_count {e : Env} (wf : e.WF) (hce : e.constEval = false) (hpt : e.strictPtr = false)
    (wb : Bool) (f : TCallable σ α) (s : σ) (xs : List α) (hf : e.Fits xs.length)
    (hr : ReachesAlignment e xs.length) (ha : e.pol.assumeMatchingSize = true → e.size ∣ xs.length) {j : Nat} (hj : e.size ≤ 2 ^ j) :
    ∃ r : TState (σ × List (TEvent α)) α, forEachT e wb (loggedT f) (s, []) xs = .ok r ∧
      simdArguments (recordOf r) ≤ xs.length / e.size + 2 * j ∧
      (recordOf r).length ≤
        xs.length / (e.size * max 1 e.pol.unrollBy.toNat) + (max 1 e.pol.unrollBy.toNat - 1) + 2 * j := by
  obtain ⟨r, h, h1, h2⟩ := forEachT_chunks wf hce hpt wb f s xs hf hr ha
  obtain ⟨hc1, hc2⟩ := groupsOf_count wf ((reaches_iff wf).1 hr) hj
  exact ⟨r, h, Nat.le_trans h1 hc1, Nat.le_trans h2 hc2⟩

/-- **C81 (`for_each`, matching size).** If the range starts at an aligned address, or alignment does not matter to the policy, and the
number of elements is a multiple of `size`, then there are no additional simd objects at all. -/
theorem forEach_call_count_matching {e : Env} (wf : e.WF) (hce : e.constEval = false) (hpt : e.strictPtr = false)
    (wb : Bool) (f : TCallable σ α) (s : σ) (xs : List α) (hf : e.Fits xs.length)
    (hs : StartsAligned e) (hd : e.size ∣ xs.length) :
    ∃ r : TState (σ × List (TEvent α)) α, forEachT e wb (loggedT f) (s, []) xs = .ok r ∧
      simdArguments (recordOf r) ≤ xs.length / e.size := by
  obtain ⟨r, h, h1, _⟩ := forEachT_chunks wf hce hpt wb f s xs hf (startsAligned_reaches hs _) (fun _ => hd)
  rw [groupsOf_count_exact wf (startsAligned_proCount hs _) hd] at h1
  exact ⟨r, h, h1⟩

private theorem transformT_chunks {t : TEnv} {mem : List α} (ok : RangesOk t mem) (wf : t.e.WF)
    (hce : t.e.constEval = false) (hpt : t.e.strictPtr = false) (hf : t.e.Fits t.n)
    (hr : ReachesAlignment t.e t.n) (ha : t.e.pol.assumeMatchingSize = true → t.e.size ∣ t.n)
    (ord : Nat → List Nat) (hord : ∀ k, (ord k).Perm (List.range k)) (op : TOp σ α) (s : σ) :
    ∃ (d : Int) (r : TState (σ × List (OpEvent α)) α), transformT t ord (loggedOp op) (s, []) mem = .ok (d, r) ∧
      (recordOf r).length ≤ chunkCount (groupsOf t.e t.n) := by
  have hp := (reaches_iff wf).1 hr
  have htr := transformG_trace wf hce hf hp (by simp [hpt]) ha (chunksT t ord (loggedOp op)) (.inl ((s, []), mem))
  have hex : ∃ x, transformT t ord (loggedOp op) (s, []) mem = .ok x := by
    rcases transform_effects ok wf hce hpt hf hr ha ord hord op s with ⟨_, _, _, h, _⟩ | ⟨_, _, _, _, _, _, _, h, _⟩ <;> exact ⟨_, h⟩
  obtain ⟨⟨d, r⟩, h⟩ := hex
  refine ⟨d, r, h, ?_⟩
  unfold transformT at h
  rw [htr] at h
  cases hg : runGroups (Transform.atPos (chunksT t ord (loggedOp op))) 0 (groupsOf t.e t.n) (.inl ((s, []), mem)) with
  | ub x => rw [hg] at h; cases h
  | trap => rw [hg] at h; cases h
  | ok st =>
    rw [hg] at h
    simp only [Outcome.bind_ok, Outcome.ok.injEq, Prod.mk.injEq] at h
    have h1 := runGroups_cost _ (fun st => (recordOf st).length) Group.k (by
      intro g p st st' hi
      exact chunksT_log _ _ hord _ _ _ _ _ _ _ _ _ hi) _ _ _ _ hg
    rw [h.2] at h1
    simp only [recordOf, Sum.elim_inl, List.length_nil, Nat.zero_add] at h1
    exact h1

/-- **C81 (`transform`).** The operation is invoked at most `n / size + 2j` times. This holds also if it throws. -/
theorem transform_call_count {t : TEnv} {mem : List α} (ok : RangesOk t mem) (wf : t.e.WF)
    (hce : t.e.constEval = false) (hpt : t.e.strictPtr = false) (hf : t.e.Fits t.n)
    (hr : ReachesAlignment t.e t.n) (ha : t.e.pol.assumeMatchingSize = true → t.e.size ∣ t.n)
    (ord : Nat → List Nat) (hord : ∀ k, (ord k).Perm (List.range k)) (op : TOp σ α) (s : σ) {j : Nat} (hj : t.e.size ≤ 2 ^ j) :
    ∃ (d : Int) (r : TState (σ × List (OpEvent α)) α), transformT t ord (loggedOp op) (s, []) mem = .ok (d, r) ∧
      (recordOf r).length ≤ t.n / t.e.size + 2 * j := by
  obtain ⟨d, r, h, h1⟩ := transformT_chunks ok wf hce hpt hf hr ha ord hord op s
  exact ⟨d, r, h, Nat.le_trans h1 (groupsOf_count wf ((reaches_iff wf).1 hr) hj).1⟩

/-- **C81 (`transform`, matching size).** -/
theorem transform_call_count_matching {t : TEnv} {mem : List α} (ok : RangesOk t mem) (wf : t.e.WF)
    (hce : t.e.constEval = false) (hpt : t.e.strictPtr = false) (hf : t.e.Fits t.n) (hs : StartsAligned t.e) (hd : t.e.size ∣ t.n)
    (ord : Nat → List Nat) (hord : ∀ k, (ord k).Perm (List.range k)) (op : TOp σ α) (s : σ) :
    ∃ (d : Int) (r : TState (σ × List (OpEvent α)) α), transformT t ord (loggedOp op) (s, []) mem = .ok (d, r) ∧
      (recordOf r).length ≤ t.n / t.e.size := by
  obtain ⟨d, r, h, h1⟩ := transformT_chunks ok wf hce hpt hf (startsAligned_reaches hs _) (fun _ => hd) ord hord op s
  rw [groupsOf_count_exact wf (startsAligned_proCount hs _) hd] at h1
  exact ⟨d, r, h, h1⟩

open CountIf in
theorem countIfT_chunks {e : Env} (wf : e.WF) (hce : e.constEval = false) (hpt : e.strictPtr = false)
    (hred : List (Outcome Int) → Outcome Int) (p : TPred σ α) (s : σ) (xs : List α)
    (hf : e.Fits xs.length) (hr : ReachesAlignment e xs.length) (ha : e.pol.assumeMatchingSize = true → e.size ∣ xs.length)
    {s' : σ} {log : List (PEvent α)} {r : Option Int}
    (h : countIfT e hred (loggedP p) (s, []) xs = .ok ((s', log), r)) : log.length ≤ chunkCount (groupsOf e xs.length) := by
  have hp := (reaches_iff wf).1 hr
  have htr := forEachG_trace wf hce hf hp (by simp [hpt]) ha (invokeT e false (callableT (loggedP p)))
    (.inl (((s, []), .ok (0, List.replicate e.size 0)), xs))
  unfold countIfT forEachT at h
  rw [htr] at h
  let lg : TState ((σ × List (PEvent α)) × Counters) α → List (PEvent α) := fun st => st.elim (·.1.1.2) (·.1.1.2)
  cases hg : runGroups (ForEach.atPos (invokeT e false (callableT (loggedP p)))) 0 (groupsOf e xs.length)
      (.inl (((s, []), .ok (0, List.replicate e.size 0)), xs)) with
  | ub x => rw [hg] at h; cases h
  | trap => rw [hg] at h; cases h
  | ok st =>
    rw [hg, Outcome.bind_ok] at h
    have h1 := runGroups_cost _ (fun st => (lg st).length) Group.k (by
      intro g p' st st' hi
      simp only [ForEach.atPos] at hi
      unfold invokeT at hi
      match st with
      | .inr x => simp only [Outcome.ok.injEq] at hi; subst hi; simp [lg]
      | .inl (((s, log), c), mem) =>
        simp only at hi
        cases hl : loadAll e mem g.aligned g.w g.k p' with
        | ub r => rw [hl] at hi; cases hi
        | trap => rw [hl] at hi; cases hi
        | ok cs =>
          rw [hl, Outcome.bind_ok] at hi
          have hk := loadAll_length _ _ _ _ _ _ _ hl
          have := lambdaT_log p cs s log c
          simp only [callableT] at hi
          generalize lambdaT (loggedP p) cs ((s, log), c) = q at hi this
          obtain ⟨s1, b⟩ := q
          simp only at this
          cases b <;> simp only [if_true, Bool.false_eq_true, if_false, Outcome.ok.injEq] at hi <;> subst hi <;>
            simp only [lg, Sum.elim_inl, Sum.elim_inr] <;> omega) _ _ _ _ hg
    simp only [lg, Sum.elim_inl, List.length_nil, Nat.zero_add] at h1
    refine Nat.le_trans (Nat.le_of_eq ?_) h1
    rcases st with ⟨⟨s1, c⟩, m⟩ | ⟨⟨s1, c⟩, m⟩
    · cases c with
      | ub x => cases h
      | trap => cases h
      | ok c =>
        simp only [Outcome.bind_ok] at h
        cases hq : sumCountv hred c.2 with
        | ub x => rw [hq] at h; cases h
        | trap => rw [hq] at h; cases h
        | ok q =>
          rw [hq, Outcome.bind_ok] at h
          cases hz : addInt c.1 q with
          | ub x => rw [hz] at h; cases h
          | trap => rw [hz] at h; cases h
          | ok z =>
            rw [hz, Outcome.bind_ok] at h
            simp only [Outcome.ok.injEq, Prod.mk.injEq] at h
            rw [h.1]; rfl
    · cases c with
      | ub x => cases h
      | trap => cases h
      | ok c =>
        simp only [Outcome.bind_ok, Outcome.ok.injEq, Prod.mk.injEq] at h
        rw [h.1]; rfl

open CountIf in
/-- **C81 (`count_if`).** The predicate is invoked at most `n / size + 2j` times. This holds also if it throws. -/
theorem countIf_call_count {e : Env} (wf : e.WF) (hce : e.constEval = false) (hpt : e.strictPtr = false)
    (hred : List (Outcome Int) → Outcome Int) (p : TPred σ α) (s : σ) (xs : List α)
    (hf : e.Fits xs.length) (hr : ReachesAlignment e xs.length) (ha : e.pol.assumeMatchingSize = true → e.size ∣ xs.length)
    {j : Nat} (hj : e.size ≤ 2 ^ j) {s' : σ} {log : List (PEvent α)} {r : Option Int}
    (h : countIfT e hred (loggedP p) (s, []) xs = .ok ((s', log), r)) : log.length ≤ xs.length / e.size + 2 * j :=
  Nat.le_trans (countIfT_chunks wf hce hpt hred p s xs hf hr ha h) (groupsOf_count wf ((reaches_iff wf).1 hr) hj).1

open CountIf in
/-- **C81 (`count_if`, matching size).** -/
theorem countIf_call_count_matching {e : Env} (wf : e.WF) (hce : e.constEval = false) (hpt : e.strictPtr = false)
    (hred : List (Outcome Int) → Outcome Int) (p : TPred σ α) (s : σ) (xs : List α)
    (hf : e.Fits xs.length) (hs : StartsAligned e) (hd : e.size ∣ xs.length)
    {s' : σ} {log : List (PEvent α)} {r : Option Int}
    (h : countIfT e hred (loggedP p) (s, []) xs = .ok ((s', log), r)) : log.length ≤ xs.length / e.size := by
  have := countIfT_chunks wf hce hpt hred p s xs hf (startsAligned_reaches hs _) (fun _ => hd) h
  rwa [groupsOf_count_exact wf (startsAligned_proCount hs _) hd] at this

/-- **C81 (`transform_reduce`).** `transform_op` is invoked at most `n / size + 2j` times, also if an operation throws. If none
does then there are at most `2j + 1` more invocations of `reduce_op` and `reduce(v, reduce_op)` than of `transform_op`. -/
theorem transformReduce_call_count {t : TEnv} {mem : List α} (ne : t.ins ≠ []) (ok : ∀ a ∈ t.ins, a + t.n ≤ mem.length)
    (wf : t.e.WF) (hce : t.e.constEval = false) (hpt : t.e.strictPtr = false) (hf : t.e.Fits t.n)
    (hr : ReachesAlignment t.e t.n) (he : ¬ EndsAtFirstAligned t.e t.n)
    (ha : t.e.pol.assumeMatchingSize = true → t.e.size ∣ t.n) (ops : ROps σ α β τ) (init : τ) (s : σ)
    {j : Nat} (hj : t.e.size ≤ 2 ^ j) :
    ∃ s' log v, transformReduceE t (loggedR ops) mem init (s, []) = .ok ((s', log), v) ∧
      transCalls log ≤ t.n / t.e.size + 2 * j ∧
      (v.isSome → reduceCallsIn log ≤ transCalls log + 2 * j + 1) := by
  have heff := transformReduce_effects ne ok wf hce hpt hf hr he ha ops init s
  have key : ∀ s' log v, transformReduceE t (loggedR ops) mem init (s, []) = .ok ((s', log), v) →
      (∀ ev ∈ log, ShapeOk t.e.size t.ins.length ev) → (transformedArgs 0 log).length ≤ t.n →
      transCalls log ≤ t.n / t.e.size + 2 * j ∧ (v.isSome → reduceCallsIn log ≤ transCalls log + 2 * j + 1) := by
    intro s' log v h hs hl
    constructor
    · have h1 := transformReduceL_cost (narrow_prims t ops mem) wf hce hj init _ _ _ h
      simp only [List.countP_nil, Nat.zero_add] at h1
      have h2 := transCalls_le t.e.size t.ins.length (List.length_pos_iff.2 ne) log hs
      have h3 : t.e.size * transCalls log ≤ t.n + t.e.size * (2 * j) :=
        Nat.le_trans h2 (Nat.add_le_add hl (Nat.mul_le_mul_left _ h1))
      have hpos := wf.size_pos
      have h4 : transCalls log ≤ (t.n + t.e.size * (2 * j)) / t.e.size := by
        rw [Nat.le_div_iff_mul_le hpos, Nat.mul_comm]; exact h3
      rwa [Nat.add_mul_div_left _ _ hpos] at h4
    · intro hv
      obtain ⟨a, rfl⟩ := Option.isSome_iff_exists.1 hv
      have h1 := transformReduceL_costZ (surplus_prims t ops mem) wf hce hj init _ _ _ h
      simp only [reduceCallsIn, transCalls] at h1
      omega
  have hi : 0 < t.ins.length := List.length_pos_iff.2 ne
  rcases heff with ⟨s', log, v, h1, _, h3, _, h5⟩ | ⟨s', log, last, h1, _, _, h3, _, h5⟩
  · exact ⟨s', log, some v, h1, key _ _ _ h1 h3 (by rw [h5 0 hi]; simp; omega)⟩
  · refine ⟨s', log ++ [last], none, h1, key _ _ _ h1 h3 ?_⟩
    have := (h5 0 hi).length_le
    simp at this; omega

/-! ### The hypotheses are met -/

-- 23 elements of 4 bytes at address 4, four lanes, `unroll_by<2>` and `prefer_aligned`: at most 9 simd objects in at most 7 invocations
example (f : TCallable Nat Nat) : ∃ r : TState (Nat × List (TEvent Nat)) Nat,
    forEachT exampleEnv true (loggedT f) (0, []) (List.range 23) = .ok r ∧
      simdArguments (recordOf r) ≤ 9 ∧ (recordOf r).length ≤ 7 :=
  forEach_call_count exampleEnv_wf rfl rfl true f 0 (List.range 23) (by unfold Env.Fits; decide)
    (fun _ _ _ _ => Or.inr ⟨3, by decide, by decide⟩) (by intro h; revert h; decide) (j := 2) (by decide)

-- without the theorem: 7 simd objects in 5 invocations
example : (forEachT exampleEnv true (loggedT (throwsAt 9)) (0, []) (List.range 23) >>= fun r =>
    .ok (simdArguments (recordOf r), (recordOf r).length)) = .ok (7, 5) := by decide +kernel

private def exMatching : Env := { exampleEnv with pol := ⟨[.unrollBy 2]⟩ }

example (f : TCallable Nat Nat) : ∃ r : TState (Nat × List (TEvent Nat)) Nat,
    forEachT exMatching true (loggedT f) (0, []) (List.range 24) = .ok r ∧ simdArguments (recordOf r) ≤ 6 :=
  forEach_call_count_matching (libstdcxx_wf _ (by decide) ⟨2, rfl⟩ rfl (by decide) ⟨[.unrollBy 2], by decide⟩ (by decide)) rfl rfl true f 0
    (List.range 24) (by unfold Env.Fits; decide) (Or.inr (by decide)) (by decide)

example (s : Nat) (l : List (PEvent Nat)) (r : Option Int) (p : CountIf.TPred Nat Nat)
    (h : countIfT exampleEnv CountIf.fallbackSum (loggedP p) (0, []) (List.range 23) = .ok ((s, l), r)) : l.length ≤ 9 :=
  countIf_call_count exampleEnv_wf rfl rfl CountIf.fallbackSum p 0
    (List.range 23) (by unfold Env.Fits; decide) (fun _ _ _ _ => Or.inr ⟨3, by decide, by decide⟩) (by intro h; revert h; decide)
    (j := 2) (by decide) h

example (op : TOp Nat Nat) : ∃ (d : Int) (r : TState (Nat × List (OpEvent Nat)) Nat),
    transformT (exampleT [.preferAligned]) List.range (loggedOp op) (0, []) (List.range 23) = .ok (d, r) ∧
      (recordOf r).length ≤ 6 := by
  have wf : (exampleT [.preferAligned]).e.WF :=
    libstdcxx_wf _ (by decide) ⟨2, rfl⟩ rfl (by decide) ⟨[.preferAligned], by decide⟩ (by decide)
  refine transform_call_count ?_ wf rfl rfl (show 11 * 4 < 2 ^ 64 by decide) ?_ (by decide) _ (fun _ => .refl _) op 0 (j := 2) (by decide)
  · exact ⟨by decide, by decide, by decide, by decide⟩
  · rw [reaches_iff wf]; decide

example (lim : Nat) : ∃ s' log v, transformReduceE (exampleT [.preferAligned]) (loggedR (exThrowing lim)) (List.range 23) 100 (0, []) =
    .ok ((s', log), v) ∧ transCalls log ≤ 6 ∧ (v.isSome → reduceCallsIn log ≤ transCalls log + 5) := by
  have wf : (exampleT [.preferAligned]).e.WF :=
    libstdcxx_wf _ (by decide) ⟨2, rfl⟩ rfl (by decide) ⟨[.preferAligned], by decide⟩ (by decide)
  refine transformReduce_call_count (by decide) (by decide) wf rfl rfl (show 11 * 4 < 2 ^ 64 by decide) ?_ ?_ (by decide) _ _ _
    (j := 2) (by decide)
  · rw [reaches_iff wf]; decide
  · rw [ends_iff wf]; decide

/-! ## The theorems applied to concrete data -/

private def exMatchingT (_ : Unit) : TEnv := { exampleT [] with n := 8 }

example (op : TOp Nat Nat) : ∃ (d : Int) (r : TState (Nat × List (OpEvent Nat)) Nat),
    transformT (exMatchingT ()) List.range (loggedOp op) (0, []) (List.range 23) = .ok (d, r) ∧ (recordOf r).length ≤ 2 := by
  have wf : (exMatchingT ()).e.WF := libstdcxx_wf _ (by decide) ⟨2, rfl⟩ rfl (by decide) ⟨[], by decide⟩ (by decide)
  exact transform_call_count_matching ⟨by decide, by decide, by decide, by decide⟩ wf rfl rfl (show 8 * 4 < 2 ^ 64 by decide)
    (Or.inr (by decide)) (by decide) _ (fun _ => .refl _) op 0
example (s : Nat) (l : List (PEvent Nat)) (r : Option Int) (p : CountIf.TPred Nat Nat)
    (h : countIfT exMatching CountIf.fallbackSum (loggedP p) (0, []) (List.range 24) = .ok ((s, l), r)) : l.length ≤ 6 :=
  countIf_call_count_matching (libstdcxx_wf _ (by decide) ⟨2, rfl⟩ rfl (by decide) ⟨[.unrollBy 2], by decide⟩ (by decide)) rfl rfl
    CountIf.fallbackSum p 0 (List.range 24) (by unfold Env.Fits; decide) (Or.inr (by decide)) (by decide) h

end Vir
