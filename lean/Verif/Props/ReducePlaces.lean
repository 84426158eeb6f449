import Verif.Lemmas.ReducePlaces
import Verif.Lemmas.CallCount
import Verif.Spec.ReducePlaces
import Verif.Props.ReduceArrays

/-!
# C110: the exact value of `vir::transform_reduce` on arrays of structs

The specification is in `Verif/Spec/ReducePlaces.lean`.
-/

namespace Vir
open Spec ForEach TransformReduce TransformArrays Simdize

variable {σ α β τ : Type} {zero : α} {junk : Nat → α} {e : Env} {ins : List Range} {n : Nat} {arrays : List (List α)}

/-- **C110.** Whether loads keep the order of the structs or not, `transform_reduce` with a `transform_op` that acts lane by lane returns
a generalized sum of `init` and one value per position; inside of disjoint blocks of eight elements the inputs that are loaded
unordered are permuted before they are combined with the others. -/
theorem transformReduceArrays_places (ok : InputArraysOk ins n arrays) (wf : e.WF) (hce : e.constEval = false) (hpt : e.strictPtr = false)
    (hf : e.Fits n) (hr : ReachesAlignment e n) (he : ¬ EndsAtFirstAligned e n) (ha : e.pol.assumeMatchingSize = true → e.size ∣ n)
    (trans : VecOp (List α) β) (g : List (List α) → β) (hg : LaneWise trans g) (rB : β → β → β) (rT : τ → τ → τ) (cvt : β → τ)
    (hredB : List β → β) (hredT : List τ → τ) (hT : HReduce rT hredT) (hB : HReduce rB hredB)
    (hom : (∀ a b, cvt (rB a b) = rT (cvt a) (cvt b)) ∨ (e.pol.prefersAligned = false ∧ e.pol.autoPrologue = false)) (init : τ) (s : σ) :
    ∃ eights row v, transformReduceA zero junk e ins n (pureOps trans rT cvt hredB hredT) arrays init s = .ok (s, some v) ∧
      EightsOf e n eights ∧ RowPlaces ins n arrays g eights row ∧ GSum rT (init :: ((List.range n).map row).map cvt) v := by
  have hp := (reaches_iff wf).1 hr
  obtain ⟨v, h1, h2⟩ := transformReduceArrays_outs (zero := zero) (junk := junk) ok wf hce hpt hf hr he ha trans rB rT cvt hredB hredT hT hB hom init s
  have hsum : (proWidths e n ++ mainWidths e n).sum = n := by rw [List.sum_append, widths_sum e n hp]
  have hw : proWidths e n ++ mainWidths e n = groupWidths (Transform.groupsOf e n) := by
    unfold proWidths mainWidths
    by_cases h0 : n = 0
    · simp [h0, Transform.groupsOf, groupWidths]
    · rw [if_neg h0, if_neg h0, groupWidths_groupsOf wf.size_pos h0]
  have hpos : ∀ w ∈ proWidths e n ++ mainWidths e n, 0 < w ∧ w ≤ e.size := by
    intro w hm
    rw [hw, groupWidths, List.mem_flatMap] at hm
    obtain ⟨G, hG, hm⟩ := hm
    rw [List.mem_replicate] at hm
    rw [hm.2]
    exact groupsOf_widths wf G hG
  obtain ⟨row, r1, r2, r3⟩ := places_exist (arrays := arrays) ok.wf g
    (ps := startsOf 0 (proWidths e n ++ mainWidths e n)) fun x hx y hy => startsOf_disjoint hx hy
  have hbound : ∀ x ∈ startsOf 0 (proWidths e n ++ mainWidths e n), x.1 + x.2 ≤ n := by
    intro x hx
    have := (mem_startsOf_bounds hx).2.1
    rw [hsum] at this; omega
  have hE (b : Nat) : (b, 8) ∈ startsOf 0 (proWidths e n ++ mainWidths e n) ↔
      EightFrom e.size n (if n = 0 then 0 else proCount e n) b := by
    rw [hw]
    by_cases h0 : n = 0
    · rw [if_pos h0, h0]
      simp [Transform.groupsOf, groupWidths, startsOf, EightFrom, EightAt]
    · rw [if_neg h0, groupWidths_groupsOf wf.size_pos h0]
      exact eight_mem_startsOf_pro wf.size_pos
  rw [outs_places hg ok.ins_ne 0 _ hpos (by rw [hsum]; omega) r3, hsum] at h2
  simp only [Nat.zero_add] at h2
  refine ⟨fun b => (b, 8) ∈ startsOf 0 (proWidths e n ++ mainWidths e n), row, v, h1,
    ⟨⟨fun b hb => hbound _ hb, fun b b' hb hb' hlt => ?_⟩, fun hst b => ?_, ?_⟩, ⟨r1, fun i _ h => r2 i h⟩, h2⟩
  · rcases startsOf_disjoint hb hb' with h | h | h
    · have := congrArg Prod.fst h
      simp only at this; omega
    · exact h
    · simp only at h; omega
  · refine (hE b).trans ?_
    simp [EightFrom, startsAligned_proCount hst n]
  · by_cases h0 : n = 0
    · exact ⟨0, by omega, .inl rfl, fun h => absurd h0 h, fun b => by simpa only [if_pos h0] using hE b⟩
    · refine ⟨proCount e n, by omega, proCount_leadIn wf _, fun _ h => (proCount_aligned wf _ ?_).2, fun b => by simpa only [if_neg h0] using hE b⟩
      rw [useAligned, h.1, (prologuePossible_iff _).2 h.2]; rfl

/-- **C110 (associative and commutative).** For an associative and commutative operation on one type the result is the fold over these
values. -/
theorem transformReduceArrays_places_fold (ok : InputArraysOk ins n arrays) (wf : e.WF) (hce : e.constEval = false)
    (hpt : e.strictPtr = false) (hf : e.Fits n) (hr : ReachesAlignment e n) (he : ¬ EndsAtFirstAligned e n)
    (ha : e.pol.assumeMatchingSize = true → e.size ∣ n) (trans : VecOp (List α) τ) (g : List (List α) → τ) (hg : LaneWise trans g)
    (r : τ → τ → τ) (hassoc : ∀ a b c, r (r a b) c = r a (r b c)) (hcomm : ∀ a b, r a b = r b a) (hredB hredT : List τ → τ)
    (hT : HReduce r hredT) (hB : HReduce r hredB) (init : τ) (s : σ) :
    ∃ eights row, transformReduceA zero junk e ins n (pureOps trans r id hredB hredT) arrays init s =
        .ok (s, some (((List.range n).map row).foldl r init)) ∧ EightsOf e n eights ∧ RowPlaces ins n arrays g eights row := by
  obtain ⟨eights, row, v, h1, h2, h3, h4⟩ := transformReduceArrays_places (zero := zero) (junk := junk) ok wf hce hpt hf hr he ha trans g hg r r id
    hredB hredT hT hB (Or.inl fun _ _ => rfl) init s
  exact ⟨eights, row, by rw [h1, h4.eq_foldl hassoc hcomm, List.map_id], h2, h3⟩

/-! ## The theorems applied to concrete data -/

/-- Weighted points on AVX, for all numbers of points: in every complete block of eight, point `3j % 8` is multiplied with weight `j`. -/
example (n : Nat) (hn : n * 4 < 2 ^ 64) (a b : List Nat) (ha : n * 3 ≤ a.length) (hb : n ≤ b.length) (init : Nat) :
    ∃ row, transformReduceA 0 (fun _ => 0) (dotEnv 8 false) [pointsIn, weightsIn] n (pureOps (σ := Unit) weighOp (· + ·) id List.sum List.sum)
        [a, b] init () = .ok ((), some (((List.range n).map row).foldl (· + ·) init)) ∧
      ∀ k j, 8 * k + 8 ≤ n → j < 8 → row (8 * k + j) = weigh [structAt a 3 (8 * k + 3 * j % 8), structAt b 1 (8 * k + j)] := by
  obtain ⟨E, row, h1, ⟨_, h2, _⟩, h3⟩ := transformReduceArrays_places_fold (zero := 0) (junk := fun _ => 0) (weighted_ok n ha hb)
    (dot_wf (Or.inr rfl)) rfl rfl hn (fun h => absurd h (by simp [dotEnv, Policy.prefersAligned]))
    (fun h => absurd h.1 (by simp [dotEnv, Policy.prefersAligned, Policy.autoPrologue]))
    (fun h => absurd h (by simp [dotEnv, Policy.assumeMatchingSize])) _ _ weighOp_laneWise (· + ·) Nat.add_assoc Nat.add_comm _ _
    hreduce_sum hreduce_sum init ()
  refine ⟨row, h1, fun k j hk hj => ?_⟩
  have hE : E (8 * k) := (h2 (.inr ⟨rfl, rfl⟩) _).2 (.inl ⟨rfl, by omega, hk⟩)
  have hu : Unordered (pointsIn.F.env 8) := by unfold Unordered; decide
  have hv : ¬ Unordered (weightsIn.F.env 8) := by unfold Unordered; decide
  have := h3.permuted _ _ hE hj
  simp only [List.map_cons, List.map_nil, if_pos hu, if_neg hv] at this
  exact this

end Vir
