import Verif.Lemmas.ReduceCalls
import Verif.Props.ReduceEffects

/-!
# C80: the calls of `binary_op` in `reduce` of `/repo/vir/simd.h`, and of `reduce_op` in `transform_reduce`

`loggedC ops` are the operations `ops`, which read and change a state of the user's and may throw, together with a record of all their
calls, in their order. `rev` is any choice of the compiler for the order of evaluation of function arguments.
-/

namespace Vir
open Spec ForEach TransformReduce Simd Eff

variable {σ α τ : Type}

/-- The calls `reduce(v, binary_op)` may make: on two simds whose common width is a power of two and at least two, or on two values. -/
def Spec.ReduceCall : CEvent α τ → Prop
  | .trans _ _ => False
  | .vec x y _ => x.length = y.length ∧ ∃ k, x.length = 2 ^ (k + 1)
  | .val _ _ _ => True

/-- What an observer can rely on, whatever the operation does, for a simd of `n` elements. Either a value is returned; then no call threw and
the calls combine exactly `n - 1` pairs of values. Or the exception of the last call leaves: no call follows it, and no more pairs were
combined. -/
def Spec.ReduceEffectsOk (n : Nat) (r : Outcome ((σ × List (CEvent α τ)) × Option τ)) : Prop :=
  (∃ s' log x, r = .ok ((s', log), some x) ∧ (∀ ev ∈ log, ev.threw = false) ∧ (∀ ev ∈ log, ReduceCall ev) ∧ pairsCombined log + 1 = n) ∨
  (∃ s' log last, r = .ok ((s', log ++ [last]), none) ∧ (∀ ev ∈ log, ev.threw = false) ∧ last.threw = true ∧
    (∀ ev ∈ log ++ [last], ReduceCall ev) ∧ pairsCombined (log ++ [last]) + 1 ≤ n)

private def At (n : Nat) (_ u : Nat) (s : σ × List (CEvent α τ)) : Prop :=
  (∀ ev ∈ s.2, ev.threw = false) ∧ (∀ ev ∈ s.2, ReduceCall ev) ∧ pairsCombined s.2 + u = n

private def AtEnd (n : Nat) (s : σ × List (CEvent α τ)) : Prop :=
  ∃ log last, s.2 = log ++ [last] ∧ (∀ ev ∈ log, ev.threw = false) ∧ last.threw = true ∧ (∀ ev ∈ s.2, ReduceCall ev) ∧
    pairsCombined s.2 + 1 ≤ n

private theorem at_call {A : Type} {n p u v : Nat} {Q : A → Prop} (f : σ → σ × Option A) (ev : Option A → CEvent α τ)
    (h1 : ∀ r, ReduceCall (ev r)) (h2 : ∀ r, (ev r).threw = r.isNone) (h4 : ∀ r, pairsCombined [ev r] + u + 1 = v)
    (hQ : ∀ s r, (f s).2 = some r → Q r) :
    Tri (At n) (AtEnd n) (fun _ => False) p v p (u + 1) Q
      (invoke fun s : σ × List (CEvent α τ) => (((f s.1).1, s.2 ++ [ev (f s.1).2]), (f s.1).2)) := by
  rintro ⟨s, log⟩ ⟨g1, g2, g4⟩
  simp only at g1 g2 g4
  have hc : ∀ r, pairsCombined (log ++ [ev r]) + (u + 1) = n := by
    intro r
    have := h4 r
    rw [pairsCombined_append]; omega
  have hsh : ∀ r, ∀ e ∈ log ++ [ev r], ReduceCall e := by
    intro r e he
    rcases List.mem_append.1 he with he | he
    · exact g2 e he
    · rw [List.mem_singleton.1 he]; exact h1 _
  cases hr : (f s).2 with
  | none =>
    exact Or.inr (Or.inl ⟨((f s).1, log ++ [ev none]), by simp [invoke, hr], log, ev none, rfl, g1, by rw [h2]; rfl, hsh none,
      by have := hc none; simp only; omega⟩)
  | some a =>
    refine Or.inl ⟨((f s).1, log ++ [ev (some a)]), a, by simp [invoke, hr], ⟨?_, hsh _, hc _⟩, hQ s a hr⟩
    intro e he
    rcases List.mem_append.1 he with he | he
    · exact g1 e he
    · rw [List.mem_singleton.1 he, h2]; rfl

/-- **C80 (`reduce`).** Side effects and exceptions of the operation passed to `reduce`. -/
theorem reduce_calls (ops : COps σ α τ) (rev : Nat → Bool) (v : List τ) (h0 : v ≠ []) (h64 : v.length < 2 ^ 64) (s : σ) :
    ReduceEffectsOk v.length (reduceCalls (loggedC ops) rev v (s, [])) := by
  have pr : CPrims (At (α := α) v.length) (AtEnd v.length) (loggedC ops) := by
    refine ⟨fun p u x y hxy hx => ?_, fun p u x y => ?_⟩
    · exact at_call (fun s => ops.vec s x y) (fun r => .vec x y r) (fun _ => ⟨hxy, hx⟩) (fun _ => rfl)
        (fun _ => by simp [pairsCombined]; omega) (fun s r h => ops.vecShape s x y r hxy h)
    · exact at_call (fun s => ops.val s x y) (fun r => .val x y r) (fun _ => trivial) (fun _ => rfl)
        (fun _ => by simp [pairsCombined]; omega) (fun _ _ _ => trivial)
  have hI : At v.length 0 (0 + v.length) ((s, []) : σ × List (CEvent α τ)) := ⟨by simp, by simp, by simp [pairsCombined]⟩
  rcases reduceE_tri pr rev 0 0 v.length v h0 (Nat.le_refl _) h64 _ hI with
    ⟨⟨s', log⟩, x, h1, ⟨h2, h3, h4⟩, _⟩ | ⟨⟨s', full⟩, h1, log, last, h2, h3, h4, h5, h6⟩ | ⟨_, _, h⟩
  · exact Or.inl ⟨s', log, x, h1, h2, h3, by simpa using h4⟩
  · simp only at h2 h5 h6
    subst h2
    exact Or.inr ⟨s', log, last, h1, h3, h4, h5, h6⟩
  · exact h.elim

/-- `reduce` of a simd has no undefined behaviour of its own. -/
theorem reduceCalls_defined (ops : COps σ α τ) (rev : Nat → Bool) (v : List τ) (h0 : v ≠ []) (h64 : v.length < 2 ^ 64) (s : σ) :
    ∃ r, reduceCalls ops rev v s = .ok r := by
  have pr : CPrims (fun _ _ _ => True) (fun _ => True) ops := by
    refine ⟨fun p u x y hxy hx s _ => ?_, fun p u x y s _ => ?_⟩
    · cases h : (ops.vec s x y).2 with
      | none => exact Or.inr (Or.inl ⟨_, by simp only [invoke]; rw [← h], trivial⟩)
      | some r => exact Or.inl ⟨_, r, by simp only [invoke]; rw [← h], trivial, ops.vecShape s x y r hxy h⟩
    · cases h : (ops.val s x y).2 with
      | none => exact Or.inr (Or.inl ⟨_, by simp only [invoke]; rw [← h], trivial⟩)
      | some r => exact Or.inl ⟨_, r, by simp only [invoke]; rw [← h], trivial, trivial⟩
  rcases reduceE_tri pr rev 0 0 v.length v h0 (Nat.le_refl _) h64 s trivial with ⟨s', x, h1, _⟩ | ⟨s', h1, _⟩ | ⟨_, _, h⟩
  · exact ⟨_, h1⟩
  · exact ⟨_, h1⟩
  · exact h.elim

/-- **C80 (agreement of the models).** Without effects the order of evaluation does not matter, and `reduce` returns a generalized sum of the elements. -/
theorem reduceCalls_pure (trans : VecOp α τ) (op : τ → τ → τ) (rev : Nat → Bool) (v : List τ) (h0 : v ≠ [])
    (h64 : v.length < 2 ^ 64) (s : σ) :
    ∃ x, reduceCalls (pureC trans op) rev v s = .ok (s, some x) ∧ reduceV (fun x y => .ok (List.zipWith op x y)) op v = .ok x ∧
      GSum op v x := by
  obtain ⟨x, h1, h2⟩ := reduceV_gsum (op := op) (fun _ _ _ => rfl) v h0 h64
  refine ⟨x, ?_, h1, h2⟩
  have := congrFun (reduceE_pure (σ := σ) trans op rev v.length v h0 (Nat.le_refl _) h64) s
  unfold reduceCalls
  rw [this]
  unfold reduceV at h1
  rw [h1]
  rfl

/-- **C80 (masked `reduce`).** `reduce(where(k, v), identity, binary_op)` calls `binary_op` on values only, once per selected element, in the
order of the elements, each time with the previous result as its first argument; an exception ends it. -/
theorem reduceMasked_calls (ops : COps σ α τ) (k : List Bool) (v : List τ) (hk : k.length = v.length) (identity : τ) (s : σ) :
    reduceMaskedE ops k v identity s = .ok (accumulate ops.val identity (selected k v) s) := by
  unfold reduceMaskedE
  rw [anyOf_eq]
  simp only [lift_ok, pure_bind']
  by_cases hany : true ∈ k
  · rw [if_pos (by simpa using hany), reduceMaskedLoopE_eq ops k v v.length 0 (by omega) hk]
    rfl
  · rw [if_neg (by simpa using hany)]
    have : selected k v = [] := by
      unfold selected
      rw [List.filterMap_eq_nil_iff]
      rintro ⟨b, x⟩ hb
      have := (List.of_mem_zip hb).1
      cases b with
      | true => exact absurd this hany
      | false => rfl
    rw [this]; rfl

/-- **C80 (few elements).** For at most three elements `reduce` does the same with all elements. -/
theorem reduce_calls_short (ops : COps σ α τ) (rev : Nat → Bool) (x : τ) (xs : List τ) (h : xs.length ≤ 2) (s : σ) :
    reduceCalls ops rev (x :: xs) s = .ok (accumulate ops.val x xs s) := by
  unfold reduceCalls
  simp only [List.length_cons]
  unfold reduceE
  simp only [List.length_cons]
  rw [if_neg (by omega), at'_eq (by simp)]
  simp only [lift_ok, pure_bind']
  rw [reduceLoopE_eq ops _ _ 1 (by simp; omega)]
  rfl

/-- What an observer can rely on, whatever the operations do: as for C64, at the level of the calls of the user's operations. Either the
algorithm returns a value; then no call threw, `transform_op` saw every element of every input range exactly once, in the order of the
ranges, and the calls of `reduce_op`, including those in horizontal reductions, combined exactly as many pairs as there are elements. Or it
ends with the exception of the last call. -/
def Spec.CallEffectsOk (t : TEnv) (mem : List α) (r : Outcome ((σ × List (CEvent α τ)) × Option τ)) : Prop :=
  (∃ s' log v, r = .ok ((s', log), some v) ∧ (∀ ev ∈ log, ev.threw = false) ∧
      (∀ ev ∈ log, CShapeOk t.e.size t.ins.length ev) ∧ pairsCombined log = t.n ∧
      ∀ i (_ : i < t.ins.length), transformedBy i log = (mem.drop t.ins[i]).take t.n) ∨
  (∃ s' log last, r = .ok ((s', log ++ [last]), none) ∧ (∀ ev ∈ log, ev.threw = false) ∧ last.threw = true ∧
      (∀ ev ∈ log ++ [last], CShapeOk t.e.size t.ins.length ev) ∧ pairsCombined (log ++ [last]) ≤ t.n ∧
      ∀ i (_ : i < t.ins.length), transformedBy i (log ++ [last]) <+: (mem.drop t.ins[i]).take t.n)

private theorem calls_of_tri {t : TEnv} {mem : List α} {m : Eff (σ × List (CEvent α τ)) τ} {s : σ}
    (h : Tri (CLogAt t mem) (CLogEnd t mem) (fun _ => False) 0 0 t.n 0 (fun _ => True) m) :
    CallEffectsOk t mem (m (s, [])) := by
  have h0 : CLogAt t mem 0 0 ((s, []) : σ × List (CEvent α τ)) :=
    ⟨Nat.zero_le _, by simp, by simp, rfl, by intro i hi; simp [transformedBy, slice]⟩
  rcases h _ h0 with ⟨⟨s', log⟩, v, h1, ⟨_, h2, h3, h5, h4⟩, _⟩ | ⟨⟨s', full⟩, h1, log, last, h2, h3, h4, h5, h7, h6⟩ | ⟨_, _, h⟩
  · exact Or.inl ⟨s', log, v, h1, h2, h3, h5, h4⟩
  · simp only at h2 h5 h6 h7
    subst h2
    refine Or.inr ⟨s', log, last, h1, h3, h4, h5, h7, ?_⟩
    intro i hi
    obtain ⟨q, hq, hs⟩ := h6 i hi
    rw [hs]
    exact List.take_prefix_take_left hq
  · exact h.elim

/-- **C80 (`transform_reduce`).** All calls of `transform_op` and `reduce_op`, under the preconditions of C14. -/
theorem transformReduce_calls {t : TEnv} {mem : List α} (ne : t.ins ≠ []) (ok : ∀ a ∈ t.ins, a + t.n ≤ mem.length)
    (wf : t.e.WF) (hce : t.e.constEval = false) (hpt : t.e.strictPtr = false) (hf : t.e.Fits t.n)
    (hr : ReachesAlignment t.e t.n) (he : ¬ EndsAtFirstAligned t.e t.n)
    (ha : t.e.pol.assumeMatchingSize = true → t.e.size ∣ t.n) (h64 : t.e.size < 2 ^ 64) (ops : COps σ α τ) (rev : Nat → Bool)
    (init : τ) (s : σ) :
    CallEffectsOk t mem (transformReduceE t ((loggedC ops).toROps rev) mem init (s, [])) := by
  have hp := (reaches_iff wf).1 hr
  rw [ends_iff wf] at he
  exact calls_of_tri (transformReduceE_tri (loggedC_prims ⟨ne, ok⟩ h64 ops rev) wf hce hpt hf (by omega) ha 0 init)

/-- **C80 (constant evaluation).** The same during constant evaluation, for every policy and address. -/
theorem transformReduce_const_calls {t : TEnv} {mem : List α} (ne : t.ins ≠ []) (ok : ∀ a ∈ t.ins, a + t.n ≤ mem.length)
    (hsz : 0 < t.e.size) (hce : t.e.constEval = true) (ha : t.e.pol.assumeMatchingSize = true → t.e.size ∣ t.n)
    (h64 : t.e.size < 2 ^ 64) (ops : COps σ α τ) (rev : Nat → Bool) (init : τ) (s : σ) :
    CallEffectsOk t mem (transformReduceE t ((loggedC ops).toROps rev) mem init (s, [])) :=
  calls_of_tri (transformReduceE_const_tri (loggedC_prims ⟨ne, ok⟩ h64 ops rev) hsz hce ha 0 init)

/-! ### The hypotheses are met -/

/-- Adds; counts its calls and throws on call number `lim`. -/
def exCalls (lim : Nat) : COps Nat Nat Nat where
  trans c args := (c + 1, if c = lim then none else some (sumOp.call args))
  vec c x y := (c + 1, if c = lim then none else some (List.zipWith (· + ·) x y))
  val c x y := (c + 1, if c = lim then none else some (x + y))
  transShape c w args r h1 h2 h3 := by
    simp only at h3
    split at h3
    · simp at h3
    · simp only [Option.some.injEq] at h3; rw [← h3]; exact sumOp.shape w args h1 h2
  vecShape c x y r h1 h2 := by
    simp only at h2
    split at h2
    · simp at h2
    · simp only [Option.some.injEq] at h2; rw [← h2]; simp [h1]

-- seven elements: both orders of evaluation, and an exception
example : reduceCalls (loggedC (exCalls 1000)) (fun _ => false) [1, 2, 3, 4, 5, 6, 7] (0, []) =
    .ok ((5, [.vec [1, 2] [3, 4] (some [4, 6]), .val 4 6 (some 10), .val 5 6 (some 11), .val 11 7 (some 18), .val 10 18 (some 28)]),
      some 28) := by decide +kernel
example : reduceCalls (loggedC (exCalls 1000)) (fun _ => true) [1, 2, 3, 4, 5, 6, 7] (0, []) =
    .ok ((5, [.val 5 6 (some 11), .val 11 7 (some 18), .vec [1, 2] [3, 4] (some [4, 6]), .val 4 6 (some 10), .val 10 18 (some 28)]),
      some 28) := by decide +kernel
example : reduceCalls (loggedC (exCalls 1)) (fun _ => false) [1, 2, 3, 4, 5, 6, 7] (0, []) =
    .ok ((2, [.vec [1, 2] [3, 4] (some [4, 6]), .val 4 6 none]), none) := by decide +kernel
example : ReduceEffectsOk 7 (reduceCalls (loggedC (exCalls 1)) (fun _ => true) [1, 2, 3, 4, 5, 6, 7] (0, [])) :=
  reduce_calls _ _ _ (by decide) (by decide) _
example : reduceMaskedE (exCalls 1000) [true, false, true] [1, 2, 3] 10 0 = .ok (2, some 14) := by decide +kernel

example (lim : Nat) (rev : Nat → Bool) : CallEffectsOk (exampleT [.preferAligned]) (List.range 23)
    (transformReduceE (exampleT [.preferAligned]) ((loggedC (exCalls lim)).toROps rev) (List.range 23) 100 (0, [])) := by
  have wf : (exampleT [.preferAligned]).e.WF :=
    libstdcxx_wf _ (by decide) ⟨2, rfl⟩ rfl (by decide) ⟨[.preferAligned], by decide⟩ (by decide)
  refine transformReduce_calls (by decide) (by decide) wf rfl rfl (show 11 * 4 < 2 ^ 64 by decide) ?_ ?_ (by decide) (by decide) _ _ _ _
  · rw [reaches_iff wf]; decide
  · rw [ends_iff wf]; decide

/-! ## The theorems applied to concrete data -/

example := reduceCalls_defined (exCalls 1) (fun _ => true) [1, 2, 3, 4, 5, 6, 7] (by simp) (by decide) 0
example := reduceCalls_pure (σ := Unit) (lanewiseOp (· * ·)) (· + ·) (fun _ => true) [1, 2, 3, 4, 5, 6, 7] (by simp) (by decide) ()
example := reduceMasked_calls (exCalls 1) [true, false, true] [1, 2, 3] rfl 10 0
example := reduce_calls_short (exCalls 1) (fun _ => true) 1 [2, 3] (by decide) 0
example := transformReduce_const_calls (t := { exampleT [.preferAligned] with e := { exampleEnv with constEval := true } }) (mem := List.range 23) (by decide)
  (by decide) (by decide) rfl (by decide) (by decide) (exCalls 1) (fun _ => true) 100 0

end Vir
