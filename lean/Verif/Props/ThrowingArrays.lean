import Verif.Lemmas.ThrowingArrays
import Verif.Lemmas.TransformGenEq
import Verif.Props.ArrayAlgorithms
import Verif.Props.Throwing

/-!
# C104: side effects and exceptions of the operation of `transform` on arrays of structs and on ranges with different element types

The specification is in `Verif/Spec/ThrowingArrays.lean` and `Verif/Spec/ArrayAlgorithms.lean`.
-/

namespace Vir
open Spec ForEach Transform TransformArrays Simdize

variable {σ α : Type} {zero : α} {junk : Nat → α} {A : AEnv} {arrays : List (List α)}

private theorem overwrite_nil (ok : ArraysOk A arrays) : overwrite A arrays [] = arrays := by
  obtain ⟨m, h1, _⟩ := ok.mem A.out (by simp)
  obtain ⟨h2, h3⟩ := List.getElem?_eq_some_iff.1 h1
  unfold overwrite
  simp only [List.flatten_nil, List.length_nil, Nat.zero_mul, List.drop_zero, List.nil_append, contents, List.getD_eq_getElem?_getD, h1,
    Option.getD_some, ← h3]
  exact List.set_getElem_self h2

private theorem effects_of_groups (ok : ArraysOk A arrays) (ord : Nat → List Nat) (hord : ∀ k, (ord k).Perm (List.range k))
    (op : TOp σ (List α)) (hop : ResultsOk A op) (s : σ) (gs : List Group) (hgs : ∀ g ∈ gs, 0 < g.w ∧ g.w ≤ A.e.size) (hal : GroupsAligned A.e 0 gs)
    (hspan : span gs = A.n) (h : transformTA zero junk A ord (loggedOp op) (s, []) arrays =
      runGroups (Transform.atPos (chunksTA zero junk A ord (loggedOp op))) 0 gs (.inl ((s, []), arrays)) >>= fun st => .ok ((A.n : Int), st)) :
    TransformEffects A arrays (transformTA zero junk A ord (loggedOp op) (s, []) arrays) := by
  have hrun := groups_overwrite (zero := zero) (junk := junk) ok ord hord op hop gs hgs s [] [] (by simp) hal (by simp [hspan])
  simp only [List.nil_append, List.length_nil, hspan, Nat.zero_add, overwrite_nil ok] at hrun
  rcases hrun with ⟨s', log, evs, h1, h2, h3, h4⟩ | ⟨s', log, evs, cur, last, h1, h2, h3, h4, h5, h6⟩
  · exact .inl ⟨s', log, evs, by rw [h, h1, Outcome.bind_ok], h2, h3, h4⟩
  · exact .inr ⟨A.n, s', log, evs, cur, last, by rw [h, h1, Outcome.bind_ok], h2, h3, h4, h5, h6⟩

/-- **C104.** `transform` on ranges of structs and scalars, with an operation that has side effects and may throw, for any order `ord` in
which the compiler evaluates the invocations of one unrolled iteration. Either no invocation throws: then the recorded invocations, put into
the order of positions (`evs`), got the elements of every input exactly once (in the order of the input where the loads keep it), the
output holds their results in that order, nothing else has changed, and the end of the output range is returned. Or one throws: then it was
the last invocation; the output holds the results of the invocations `evs` for the first positions, and everything else is as before the
call; all other invocations (`cur` and `last`) got elements after these positions. An input may be the output array itself. -/
theorem transformArrays_effects (ok : ArraysOk A arrays) (wf : A.e.WF) (hce : A.e.constEval = false)
    (hpt : A.e.strictPtr = false) (hf : A.e.Fits A.n) (hr : ReachesAlignment A.e A.n)
    (ha : A.e.pol.assumeMatchingSize = true → A.e.size ∣ A.n) (ord : Nat → List Nat) (hord : ∀ k, (ord k).Perm (List.range k))
    (op : TOp σ (List α)) (hop : ResultsOk A op) (s : σ) :
    TransformEffects A arrays (transformTA zero junk A ord (loggedOp op) (s, []) arrays) := by
  have hp := (reaches_iff wf).1 hr
  exact effects_of_groups ok ord hord op hop s (groupsOf A.e A.n) (groupsOf_widths wf) (groupsOf_aligned wf hp)
    (groupsOf_span hp) (transformG_trace (t := ⟨A.e, [], 0, A.n⟩) wf hce hf hp (by simp [hpt]) ha _ _)

/-- **C104 (constant evaluation).** The same during constant evaluation (where an exception ends it), for every policy and address. -/
theorem transformArrays_const_effects (ok : ArraysOk A arrays) (hs : 0 < A.e.size) (hce : A.e.constEval = true)
    (hpt : A.e.strictPtr = false) (ha : A.e.pol.assumeMatchingSize = true → A.e.size ∣ A.n) (ord : Nat → List Nat)
    (hord : ∀ k, (ord k).Perm (List.range k)) (op : TOp σ (List α)) (hop : ResultsOk A op) (s : σ) :
    TransformEffects A arrays (transformTA zero junk A ord (loggedOp op) (s, []) arrays) :=
  effects_of_groups ok ord hord op hop s (constGroupsOf A.e A.n) (fun g hg => ⟨(constGroupsOf_widths hs g hg).1, (constGroupsOf_widths hs g hg).2.1⟩)
    (groupsAligned_false (fun g hg => (constGroupsOf_widths hs g hg).2.2) 0) (constGroupsOf_span _ _)
    (transformG_const (t := ⟨A.e, [], 0, A.n⟩) hs hce (by simp [hpt]) ha _ _)

/-- **C104 (every element once).** The invocations `evs` of `Covers` got, as argument number `i`, the elements of the input number `i` from the
first one on, each exactly once; in the order of the input if its loads keep the order. -/
theorem covers_args {evs : List (OpEvent (List α))} (h : Covers A arrays 0 evs) {i : Nat} {I : Range} (hI : A.ins[i]? = some I) :
    (argsOf i evs).Perm (structsAt arrays I 0 (resultsOf evs).length) ∧
      ((∀ w, 0 < w → w ≤ A.e.size → ¬ Unordered (I.F.env w)) → argsOf i evs = structsAt arrays I 0 (resultsOf evs).length) := by
  have key : ∀ p, Covers A arrays p evs → (argsOf i evs).Perm (structsAt arrays I p (resultsOf evs).length) ∧
      ((∀ w, 0 < w → w ≤ A.e.size → ¬ Unordered (I.F.env w)) → argsOf i evs = structsAt arrays I p (resultsOf evs).length) := by
    clear h
    induction evs with
    | nil => intro p _; simp [argsOf, resultsOf, structsAt]
    | cons ev evs ih =>
      intro p hc
      obtain ⟨r, h1, hw, ⟨_, h3⟩, h4⟩ := hc
      obtain ⟨a, b1, b2, b3⟩ := h3 i I hI
      obtain ⟨c1, c2⟩ := ih _ h4
      have e1 : argsOf i (ev :: evs) = a ++ argsOf i evs := by simp [argsOf, b1]
      have e2 : (resultsOf (ev :: evs)).length = r.length + (resultsOf evs).length := by simp [resultsOf, h1]
      have e3 : structsAt arrays I p (r.length + (resultsOf evs).length) =
          structsAt arrays I p r.length ++ structsAt arrays I (p + r.length) (resultsOf evs).length := by
        simp [structsAt, List.range_add, Function.comp_def, Nat.add_assoc]
      rw [e1, e2, e3]
      exact ⟨b2.append c1, fun ho => by rw [b3 (ho _ hw.1 hw.2.1), c2 ho]⟩
  exact key 0 h

/-! ### The hypotheses are met, and both cases occur -/

/-- Adds the members of the structs in every lane and 1000 times the number of the call; throws in call number `n`. -/
def sumThrowsAt (n : Nat) : TOp Nat (List Nat) where
  call s args := (s + 1, if s = n then none else some ((List.range ((args.getD 0 []).length)).map fun i =>
    [((args.filterMap (·[i]?)).flatten).sum + 1000 * s]))
  shape s w args r hne h hr := by
    dsimp only at hr
    split at hr
    · exact absurd hr (by simp)
    · simp only [Option.some.injEq] at hr
      subst hr
      cases args with
      | nil => exact absurd rfl hne
      | cons a args => simp [h a (by simp)]

theorem sumThrowsAt_ok (size m n : Nat) : ResultsOk (sumEnv size m) (sumThrowsAt n) := by
  intro s args r hr x hx
  simp only [sumThrowsAt] at hr
  split at hr
  · exact absurd hr (by simp)
  · simp only [Option.some.injEq] at hr
    subst hr
    simp only [List.mem_map] at hx
    obtain ⟨_, _, rfl⟩ := hx
    rfl

-- ten points and numbers, four lanes: the second invocation throws
example : ∃ r, transformTA 0 (fun _ => 0) (sumEnv 4 10) List.range (sumThrowsAt 1) 0 [List.range 30, List.replicate 10 5] =
    .ok (r, .inr (2, [List.range 30, [8, 17, 26, 35, 5, 5, 5, 5, 5, 5]])) := ⟨10, by decide +kernel⟩

-- no invocation throws
example : transformTA 0 (fun _ => 0) (sumEnv 4 10) List.range (sumThrowsAt 7) 0 [List.range 30, List.replicate 10 5] =
    .ok (10, .inl (3, [List.range 30, [8, 17, 26, 35, 1044, 1053, 1062, 1071, 2080, 2089]])) := by decide +kernel

example (n : Nat) (hn : n * 4 < 2 ^ 64) (a b : List Nat) (ha : n * 3 ≤ a.length) (hb : n ≤ b.length) (k : Nat) :
    TransformEffects (sumEnv 4 n) [a, b]
      (transformTA 0 (fun _ => 0) (sumEnv 4 n) (fun k => (List.range k).reverse) (loggedOp (sumThrowsAt k)) (0, []) [a, b]) := by
  have wf : (sumEnv 4 n).e.WF := libstdcxx_wf _ (show 0 < 4 by decide) ⟨2, rfl⟩ rfl (show 4 ∣ 0x1004 by decide) ⟨[], rfl⟩
    (show stdBitCeil (4 * 4) ≤ 4000 by decide)
  exact transformArrays_effects (sumEnv_ok 4 n ha hb) wf rfl rfl hn (fun h => absurd h (by simp [sumEnv, Policy.prefersAligned]))
    (fun h => absurd h (by simp [sumEnv, Policy.assumeMatchingSize])) _ (fun _ => List.reverse_perm _) _ (sumThrowsAt_ok 4 n k) 0

-- eight lanes (AVX): the loads of the points permute the lanes
example : transformTA 0 (fun _ => 0) (sumEnv 8 9) List.range (sumThrowsAt 7) 0 [List.range 27, List.replicate 9 0] =
    .ok (9, .inl (2, [List.range 27, [3, 30, 57, 12, 39, 66, 21, 48, 1075]])) := by decide +kernel

private def sumConstEnv : AEnv := { sumEnv 4 3 with e := { (sumEnv 4 3).e with constEval := true } }

example : TransformEffects sumConstEnv [List.range 9, [10, 20, 30]]
    (transformTA 0 (fun _ => 0) sumConstEnv List.range (loggedOp (sumThrowsAt 1)) (0, []) [List.range 9, [10, 20, 30]]) :=
  have ok := sumEnv_ok 4 3 (a := List.range 9) (b := [10, 20, 30]) (by decide) (by decide)
  transformArrays_const_effects (A := sumConstEnv) ⟨ok.1, ok.2, ok.3, ok.4⟩ (show 0 < 4 by decide) rfl rfl
    (fun h => absurd h (by simp [sumConstEnv, sumEnv, Policy.assumeMatchingSize])) _ (fun _ => List.Perm.refl _) _ (sumThrowsAt_ok 4 3 1) 0

-- two invocations with two and one elements
private def twoCalls : List (OpEvent (List Nat)) :=
  [⟨[[[0, 1, 2], [3, 4, 5]], [[10], [20]]], some [[13], [32]]⟩, ⟨[[[6, 7, 8]], [[30]]], some [[51]]⟩]

private theorem twoCalls_cover : Covers (sumEnv 4 3) [List.range 9, [10, 20, 30]] 0 twoCalls := by
  refine ⟨[[13], [32]], rfl, ⟨by decide, by decide, by decide⟩, ⟨rfl, ?_⟩, [[51]], rfl, ⟨by decide, by decide, by decide⟩, ⟨rfl, ?_⟩, trivial⟩
  all_goals
    intro i I hI
    match i, hI with
    | 0, hI => cases hI; exact ⟨_, rfl, by decide, fun _ => by decide⟩
    | 1, hI => cases hI; exact ⟨_, rfl, by decide, fun _ => by decide⟩

example : (argsOf 0 twoCalls).Perm (structsAt [List.range 9, [10, 20, 30]] ⟨0, 3, ForEachStruct.pointFamily⟩ 0 3) :=
  (covers_args twoCalls_cover rfl).1

end Vir
