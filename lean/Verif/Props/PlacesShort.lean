import Verif.Props.ArrayPlaces
import Verif.Props.ReducePlaces

/-!
# C109, C110: when unordered loads do no harm

If no eight elements are loaded together, because there are fewer than eight or because simd objects have fewer than eight lanes,
`transform` and `transform_reduce` are right for all element types.
-/

namespace Vir
open Spec ForEach TransformReduce TransformArrays Simdize

variable {σ α β τ : Type} {zero : α} {junk : Nat → α}

private theorem no_eight {e : Env} {n p b : Nat} (hl : LeadIn e p) (h : n < 8 ∨ e.size < 8) (hb : b + 8 ≤ n) : ¬ EightFrom e.size n p b := by
  rintro (⟨h1, _⟩ | ⟨_, ⟨h1, _⟩ | ⟨h1, _⟩⟩)
  · rcases hl with rfl | ⟨h2, _⟩
    · simp at h1
    · have := Nat.mod_le p 16
      omega
  · omega
  · omega

/-- **C109 (short ranges, short simd objects).** `transform` makes element `i` of the output from the elements `i` of the inputs, whatever
their types are, if there are fewer than eight elements or fewer than eight lanes. -/
theorem transformArrays_short {A : AEnv} {arrays : List (List α)} (ok : ArraysOk A arrays) (wf : A.e.WF) (hce : A.e.constEval = false)
    (hpt : A.e.strictPtr = false) (hf : A.e.Fits A.n) (hr : ReachesAlignment A.e A.n)
    (ha : A.e.pol.assumeMatchingSize = true → A.e.size ∣ A.n) (hshort : A.n < 8 ∨ A.e.size < 8) (op : VecOp (List α) (List α))
    (g : List (List α) → List α) (hop : LaneWise op g)
    (hres : ∀ at' : Range → Nat, (∀ I, at' I < A.n) → (g (A.ins.map fun I => structAt (contents arrays I) I.c (at' I))).length = A.out.c) :
    ∃ arrays', transformA zero junk A op arrays = .ok ((A.n : Int), arrays') ∧ Written A arrays g A.n arrays' := by
  obtain ⟨E, arrays', h1, h2, h3, _, p, _, h5, _, h6⟩ := transformArrays_places (zero := zero) (junk := junk) ok wf hce hpt hf hr ha op g hop hres
  have hE : ∀ b, ¬ E b := fun b hb => no_eight h5 hshort (h2.1 b hb) ((h6 b).1 hb)
  obtain ⟨mem, mem', e1, e2, e3, _, e4, e5⟩ := h3.out
  exact ⟨arrays', h1, h3.len, h3.other, mem, mem', e1, e2, e3, fun i hi => e4 i hi fun b hb => absurd hb (hE b), e5⟩

/-- **C110 (short ranges, short simd objects).** The same for `transform_reduce`: the result is a generalized sum of `init` and the results
for the elements with the same index. -/
theorem transformReduceArrays_short {e : Env} {ins : List Range} {n : Nat} {arrays : List (List α)} (ok : InputArraysOk ins n arrays)
    (wf : e.WF) (hce : e.constEval = false) (hpt : e.strictPtr = false) (hf : e.Fits n) (hr : ReachesAlignment e n)
    (he : ¬ EndsAtFirstAligned e n) (ha : e.pol.assumeMatchingSize = true → e.size ∣ n) (hshort : n < 8 ∨ e.size < 8)
    (trans : VecOp (List α) β) (g : List (List α) → β) (hg : LaneWise trans g) (rB : β → β → β) (rT : τ → τ → τ) (cvt : β → τ)
    (hredB : List β → β) (hredT : List τ → τ) (hT : HReduce rT hredT) (hB : HReduce rB hredB)
    (hom : (∀ a b, cvt (rB a b) = rT (cvt a) (cvt b)) ∨ (e.pol.prefersAligned = false ∧ e.pol.autoPrologue = false)) (init : τ) (s : σ) :
    ∃ v, transformReduceA zero junk e ins n (pureOps trans rT cvt hredB hredT) arrays init s = .ok (s, some v) ∧
      GSum rT (init :: (transformedArrays ins n arrays g).map cvt) v := by
  obtain ⟨E, row, v, h1, ⟨h2, _, p, _, h5, _, h6⟩, h3, h4⟩ := transformReduceArrays_places (zero := zero) (junk := junk) ok wf hce hpt hf hr he ha
    trans g hg rB rT cvt hredB hredT hT hB hom init s
  have hE : ∀ b, ¬ E b := fun b hb => no_eight h5 hshort (h2.1 b hb) ((h6 b).1 hb)
  have : (List.range n).map row = transformedArrays ins n arrays g :=
    List.map_congr_left fun i hi => h3.other i (List.mem_range.1 hi) fun b hb => absurd hb (hE b)
  exact ⟨v, h1, this ▸ h4⟩

/-! ## The theorems applied to concrete data -/

/-- Seven points and numbers on AVX. -/
example (a b : List Nat) (ha : 21 ≤ a.length) (hb : 7 ≤ b.length) :
    ∃ arrays', transformA 0 (fun _ => 0) (sumEnv 8 7) sumMembers [a, b] = .ok ((7 : Int), arrays') ∧
      Written (sumEnv 8 7) [a, b] (fun xs => [xs.flatten.sum]) 7 arrays' :=
  transformArrays_short (A := sumEnv 8 7) (sumEnv_ok 8 7 ha hb)
    (libstdcxx_wf _ (show 0 < 8 by decide) ⟨2, rfl⟩ rfl (show 4 ∣ 0x1004 by decide) ⟨[], rfl⟩ (show stdBitCeil (8 * 4) ≤ 4000 by decide))
    rfl rfl (show 7 * 4 < 2 ^ 64 by decide) (fun h => absurd h (by simp [sumEnv, Policy.prefersAligned]))
    (fun h => absurd h (by simp [sumEnv, Policy.assumeMatchingSize])) (.inl (show 7 < 8 by decide)) _ _ sumMembers_laneWise fun _ _ => rfl

/-- Any number of points and weights on SSE. -/
example (n : Nat) (hn : n * 4 < 2 ^ 64) (a b : List Nat) (ha : n * 3 ≤ a.length) (hb : n ≤ b.length) (init : Nat) :
    ∃ v, transformReduceA 0 (fun _ => 0) (dotEnv 4 false) [pointsIn, weightsIn] n (pureOps (σ := Unit) weighOp (· + ·) id List.sum List.sum)
        [a, b] init () = .ok ((), some v) ∧ GSum (· + ·) (init :: (transformedArrays [pointsIn, weightsIn] n [a, b] weigh).map id) v :=
  transformReduceArrays_short (weighted_ok n ha hb) (dot_wf (Or.inl rfl)) rfl rfl hn
    (fun h => absurd h (by simp [dotEnv, Policy.prefersAligned]))
    (fun h => absurd h.1 (by simp [dotEnv, Policy.prefersAligned, Policy.autoPrologue]))
    (fun h => absurd h (by simp [dotEnv, Policy.assumeMatchingSize])) (.inr (show 4 < 8 by decide)) _ _ weighOp_laneWise (· + ·) (· + ·) id _ _
    hreduce_sum hreduce_sum (.inl fun _ _ => rfl) init ()

end Vir
