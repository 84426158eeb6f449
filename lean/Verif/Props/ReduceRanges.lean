import Verif.Lemmas.ReduceRanges
import Verif.Props.ReduceEffects
import Verif.Props.Overloads

/-!
# C69: the range overloads of `vir::transform_reduce` and `vir::reduce`
-/

namespace Vir
open Spec ForEach TransformReduce Transform

variable {σ α β τ : Type} {e : Env} {r1 : Rng} {rs : List Rng} {mem : List α}

/-- The arguments of the iterator form. -/
private def tR (e : Env) (r1 : Rng) (rs : List Rng) : TEnv := ⟨e, r1.base :: rs.map Rng.base, 0, r1.len⟩

/-- All ranges are inside the arena. -/
def Spec.InArena (r1 : Rng) (rs : List Rng) (mem : List α) : Prop := ∀ r ∈ r1 :: rs, r.base + r.len ≤ mem.length

/-- The operations never throw. -/
def Spec.NeverThrow (ops : ROps σ α β τ) : Prop :=
  (∀ s args, (ops.trans s args).2 ≠ none) ∧ (∀ s x y, (ops.red s x y).2 ≠ none) ∧ (∀ s v, (ops.hredB s v).2 ≠ none) ∧
    ∀ s v, (ops.hredT s v).2 ≠ none

private theorem ins_ok (hm : InArena r1 rs mem) (hrs : ∀ r ∈ rs, r1.len ≤ r.len) :
    ∀ a ∈ (tR e r1 rs).ins, a + (tR e r1 rs).n ≤ mem.length := by
  intro a ha
  simp only [tR, List.mem_cons, List.mem_map] at ha ⊢
  rcases ha with rfl | ⟨r, hr, rfl⟩
  · exact hm r1 (by simp)
  · have h1 := hm r (by simp [hr])
    have h2 := hrs r hr
    omega

/-- **C69.** If the other ranges are at least as long as the first one, the range form applies `transform_op` to every element of the
first range, and the elements at the same positions of the others, exactly once and in order; longer ranges are used partially.
Exceptions are handled as in the iterator form. -/
theorem transformReduceRanges_effects (hm : InArena r1 rs mem) (hrs : ∀ r ∈ rs, r1.len ≤ r.len) (wf : e.WF)
    (hce : e.constEval = false) (hpt : e.strictPtr = false) (hf : e.Fits r1.len) (hr : ReachesAlignment e r1.len)
    (he : ¬ EndsAtFirstAligned e r1.len) (ha : e.pol.assumeMatchingSize = true → e.size ∣ r1.len) (ops : ROps σ α β τ)
    (init : τ) (s : σ) :
    EffectsOk ⟨e, r1.base :: rs.map Rng.base, 0, r1.len⟩ mem (transformReduceRanges e r1 rs (loggedR ops) mem init (s, [])) := by
  have h := transformReduce_effects (t := tR e r1 rs) (by simp [tR]) (ins_ok hm hrs) wf hce hpt hf hr he ha ops init s
  have hle := le_transformReduceL (t := tR e r1 rs) (ops := loggedR ops) (loaderLe_ranges (e := e) (mem := mem) hrs (loggedR ops)) init (s, [])
  rcases h with ⟨s', log, v, h1, h2⟩ | ⟨s', log, last, h1, h2⟩
  · exact Or.inl ⟨s', log, v, hle _ h1, h2⟩
  · exact Or.inr ⟨s', log, last, hle _ h1, h2⟩

/-- **C69 (constant evaluation).** -/
theorem transformReduceRanges_const_effects (hm : InArena r1 rs mem) (hrs : ∀ r ∈ rs, r1.len ≤ r.len) (hsz : 0 < e.size)
    (hce : e.constEval = true) (ha : e.pol.assumeMatchingSize = true → e.size ∣ r1.len) (ops : ROps σ α β τ) (init : τ) (s : σ) :
    EffectsOk ⟨e, r1.base :: rs.map Rng.base, 0, r1.len⟩ mem (transformReduceRanges e r1 rs (loggedR ops) mem init (s, [])) := by
  have h := transformReduce_const_effects (t := tR e r1 rs) (by simp [tR]) (ins_ok hm hrs) hsz hce ha ops init s
  have hle := le_transformReduceL (t := tR e r1 rs) (ops := loggedR ops) (loaderLe_ranges (e := e) (mem := mem) hrs (loggedR ops)) init (s, [])
  rcases h with ⟨s', log, v, h1, h2⟩ | ⟨s', log, last, h1, h2⟩
  · exact Or.inl ⟨s', log, v, hle _ h1, h2⟩
  · exact Or.inr ⟨s', log, last, hle _ h1, h2⟩

/-- **C69 (value).** With pure operations the range form returns what the iterator form (C14, C15) returns. -/
theorem transformReduceRanges_value (hrs : ∀ r ∈ rs, r1.len ≤ r.len) (trans : VecOp α β) (rB : β → β → β) (rT : τ → τ → τ)
    (cvt : β → τ) (hredB : List β → β) (hredT : List τ → τ) (init v : τ) (s : σ)
    (h : transformReduce ⟨e, r1.base :: rs.map Rng.base, r1.len, trans, rB, rT, cvt, hredB, hredT⟩ mem init = .ok v) :
    transformReduceRanges e r1 rs (pureOps trans rT cvt hredB hredT) mem init s = .ok (s, some v) := by
  have hle := le_transformReduceL (t := tR e r1 rs) (ops := pureOps trans rT cvt hredB hredT)
    (loaderLe_ranges (σ := σ) (e := e) (mem := mem) hrs (pureOps trans rT cvt hredB hredT)) init s
  have h1 := transformReduceE_pure (σ := σ) ⟨e, r1.base :: rs.map Rng.base, r1.len, trans, rB, rT, cvt, hredB, hredT⟩ mem init s
  rw [h] at h1
  exact hle _ h1

/-- **C69 (short ranges).** If another range is shorter than the first one, the call reads past its end, unless an operation throws
before that. -/
theorem transformReduceRanges_short (hm : InArena r1 rs mem) (hs : ∃ r ∈ rs, r.len < r1.len) (wf : e.WF)
    (hpt : e.strictPtr = false) (hf : e.Fits r1.len)
    (hr : e.constEval = false → ReachesAlignment e r1.len ∧ ¬ EndsAtFirstAligned e r1.len)
    (ha : e.pol.assumeMatchingSize = true → e.size ∣ r1.len) (ops : ROps σ α β τ) (init : τ) (s : σ) :
    transformReduceRanges e r1 rs ops mem init s = .ub .oob ∨
      ∃ s', transformReduceRanges e r1 rs ops mem init s = .ok (s', none) ∧ ¬ NeverThrow ops := by
  have key := short_prims (e := e) hm ops (fun _ => ¬ NeverThrow ops) (fun s a h hn => hn.1 s a h) (fun s x y h hn => hn.2.1 s x y h)
    (fun s v h hn => hn.2.2.1 s v h) (fun s v h hn => hn.2.2.2 s v h)
  have htri : Eff.Tri (fun p _ _ => ∀ r ∈ rs, p ≤ r.len) (fun _ => ¬ NeverThrow ops) (· = .oob) 0 0 r1.len 0 (fun _ => True)
      (transformReduceRanges e r1 rs ops mem init) := by
    cases hce : e.constEval with
    | true => exact transformReduceE_const_tri key wf.size_pos hce ha 0 init
    | false =>
      obtain ⟨h1, h2⟩ := hr hce
      have hp := (reaches_iff wf).1 h1
      rw [ends_iff wf] at h2
      exact transformReduceE_tri key wf hce hpt hf (by show r1.len = 0 ∨ proCount e r1.len < r1.len; omega) ha 0 init
  rcases htri s (by simp) with ⟨s', a, _, h2, _⟩ | ⟨s', h1, h2⟩ | ⟨r, h1, rfl⟩
  · obtain ⟨r, h3, h4⟩ := hs
    have := h2 r h3
    omega
  · exact Or.inr ⟨s', h1, h2⟩
  · exact Or.inl h1

/-- **C69 (exact condition).** With operations that do not throw the call is defined exactly if the other ranges are at least as long
as the first one. -/
theorem transformReduceRanges_defined_iff (hm : InArena r1 rs mem) (wf : e.WF)
    (hpt : e.strictPtr = false) (hf : e.Fits r1.len)
    (hr : e.constEval = false → ReachesAlignment e r1.len ∧ ¬ EndsAtFirstAligned e r1.len)
    (ha : e.pol.assumeMatchingSize = true → e.size ∣ r1.len) (ops : ROps σ α β τ) (hn : NeverThrow ops) (init : τ) (s : σ) :
    (transformReduceRanges e r1 rs (loggedR ops) mem init (s, [])).Defined ↔ ∀ r ∈ rs, r1.len ≤ r.len := by
  constructor
  · intro hd r hr'
    refine Nat.le_of_not_lt fun hlt => ?_
    rcases transformReduceRanges_short hm ⟨r, hr', hlt⟩ wf hpt hf hr ha (loggedR ops) init (s, []) with h | ⟨s', _, h⟩
    · rw [h] at hd; exact hd
    · exact h ⟨fun s => hn.1 s.1, fun s => hn.2.1 s.1, fun s => hn.2.2.1 s.1, fun s => hn.2.2.2 s.1⟩
  · intro hrs
    cases hce : e.constEval with
    | true =>
      rcases transformReduceRanges_const_effects hm hrs wf.size_pos hce ha ops init s with ⟨_, _, _, h, _⟩ | ⟨_, _, _, h, _⟩ <;>
        (rw [h]; trivial)
    | false =>
      rcases transformReduceRanges_effects hm hrs wf hce hpt hf (hr hce).1 (hr hce).2 ha ops init s with
        ⟨_, _, _, h, _⟩ | ⟨_, _, _, h, _⟩ <;> (rw [h]; trivial)

/-! ### The hypotheses are met -/

private def exOps : ROps Unit Nat Nat Nat := pureOps (lanewiseOp (· * ·)) (· + ·) id List.sum List.sum

private theorem exOps_never : NeverThrow exOps := ⟨by simp [exOps, pureOps], by simp [exOps, pureOps], by simp [exOps, pureOps], by simp [exOps, pureOps]⟩

-- an inner product; the second range is longer, then too short
example (n : Nat) (hn : n ≤ 16) :
    (transformReduceRanges exampleEnv ⟨0, 11⟩ [⟨11, n⟩] (loggedR exOps) (List.range 27) 100 ((), [])).Defined ↔ 11 ≤ n := by
  have := transformReduceRanges_defined_iff (e := exampleEnv) (r1 := ⟨0, 11⟩) (rs := [⟨11, n⟩]) (mem := List.range 27)
    (by intro r hr; simp only [List.mem_cons, List.not_mem_nil, or_false] at hr; rcases hr with rfl | rfl <;> simp <;> omega)
    exampleEnv_wf rfl (by unfold Env.Fits; decide)
    (fun _ => ⟨by rw [reaches_iff exampleEnv_wf]; decide, by rw [ends_iff exampleEnv_wf]; decide⟩)
    (by intro h; revert h; decide) exOps exOps_never 100 ()
  simpa using this
example : transformReduceRanges exampleEnv ⟨0, 11⟩ [⟨11, 12⟩] exOps (List.range 27) 100 () = .ok ((), some (100 + 990)) := by decide +kernel
example : transformReduceRanges exampleEnv ⟨0, 11⟩ [⟨11, 10⟩] exOps (List.range 27) 100 () = .ub .oob := by decide +kernel

/-! ## The theorems applied to concrete data -/

private theorem arena : InArena ⟨0, 11⟩ [⟨11, 12⟩] (List.range 27) ∧ InArena ⟨0, 11⟩ [⟨11, 10⟩] (List.range 27) := by
  unfold InArena; decide

private theorem runE : ReachesAlignment exampleEnv 11 ∧ ¬ EndsAtFirstAligned exampleEnv 11 :=
  ⟨by rw [reaches_iff exampleEnv_wf]; decide, by rw [ends_iff exampleEnv_wf]; decide⟩

example := transformReduceRanges_effects arena.1 (by decide) exampleEnv_wf rfl rfl (by unfold Env.Fits; decide) runE.1 runE.2 (by decide) exOps 100 ()
example := transformReduceRanges_const_effects (e := { exampleEnv with constEval := true }) arena.1 (by decide) (by decide) rfl (by decide) exOps 100 ()
example := transformReduceRanges_value (e := exampleEnv) (r1 := ⟨0, 11⟩) (rs := [⟨11, 12⟩]) (mem := List.range 27) (by decide) (lanewiseOp (· * ·)) (· + ·) (· + ·)
  id List.sum List.sum 100 1090 () (by decide +kernel)
example := transformReduceRanges_short arena.2 (by decide) exampleEnv_wf rfl (by unfold Env.Fits; decide) (fun _ => runE) (by decide) exOps 100 ()

end Vir
