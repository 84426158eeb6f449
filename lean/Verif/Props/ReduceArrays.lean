import Verif.Lemmas.ArrayEffects
import Verif.Props.ArrayAlgorithms
import Verif.Props.ReduceEffects

/-!
# C72: `vir::transform_reduce` on arrays of structs and on ranges with different element types

The specification is in `Verif/Spec/ArrayAlgorithms.lean`.
-/

namespace Vir
open Spec ForEach TransformReduce TransformArrays Simdize

variable {σ α β τ : Type} {zero : α} {junk : Nat → α} {e : Env} {ins : List Range} {n : Nat} {arrays : List (List α)}

private theorem effects {ops : ROps σ (List α) β τ} {init : τ} {s : σ}
    (h : EffectsOk ⟨e, bases n ins, 0, n⟩ (arena arrays n ins) (transformReduceE ⟨e, bases n ins, 0, n⟩ (loggedR ops) (arena arrays n ins) init (s, [])))
    (heq : transformReduceA zero junk e ins n (loggedR ops) arrays init (s, []) =
      transformReduceE ⟨e, bases n ins, 0, n⟩ (loggedR ops) (arena arrays n ins) init (s, [])) :
    ArrayEffectsOk e ins n arrays (transformReduceA zero junk e ins n (loggedR ops) arrays init (s, [])) := by
  have hl : (bases n ins).length = ins.length := by simp [bases]
  have hd : ∀ i (hi : i < ins.length), ((arena arrays n ins).drop ((bases n ins)[i]'(by omega))).take n = structsOf arrays n ins[i] := by
    intro i hi
    rw [← arena_drop hi]
    simp [bases]
  rw [← heq] at h
  rcases h with ⟨s', log, v, h1, h2, h3, h6, h4⟩ | ⟨s', log, last, h1, h2, h3, h4, h6, h5⟩
  · refine Or.inl ⟨s', log, v, h1, h2, ?_, h6, fun i hi => ?_⟩
    · simpa only [hl] using h3
    · rw [h4 i (by simpa only [hl] using hi), ← hd i hi]
  · refine Or.inr ⟨s', log, last, h1, h2, h3, ?_, h6, fun i hi => ?_⟩
    · simpa only [hl] using h4
    · have := h5 i (by simpa only [hl] using hi)
      rw [hd i hi] at this
      exact this

private theorem bases_ne (ok : InputArraysOk ins n arrays) : bases n ins ≠ [] := by
  have := ok.ins_ne
  intro h
  have := congrArg List.length h
  simp [bases] at this
  contradiction

private theorem run_eq (ok : InputArraysOk ins n arrays) (wf : e.WF) (hce : e.constEval = false) (hpt : e.strictPtr = false)
    (hf : e.Fits n) (hr : ReachesAlignment e n) (he : ¬ EndsAtFirstAligned e n) (ha : e.pol.assumeMatchingSize = true → e.size ∣ n)
    (ops : ROps σ (List α) β τ) (init : τ) (s : σ) :
    transformReduceA zero junk e ins n ops arrays init s =
      transformReduceE ⟨e, bases n ins, 0, n⟩ (viewOps e ins ops) (arena arrays n ins) init s := by
  have hp := (reaches_iff wf).1 hr
  rw [ends_iff wf] at he
  exact transformReduceA_eq ok wf.size_pos ops init
    (fun ld pr => transformReduceE_tri pr wf hce hpt hf (by show n = 0 ∨ proCount e n < n; omega) ha 0 init) s

private theorem const_eq (ok : InputArraysOk ins n arrays) (hs : 0 < e.size) (hce : e.constEval = true)
    (ha : e.pol.assumeMatchingSize = true → e.size ∣ n) (ops : ROps σ (List α) β τ) (init : τ) (s : σ) :
    transformReduceA zero junk e ins n ops arrays init s =
      transformReduceE ⟨e, bases n ins, 0, n⟩ (viewOps e ins ops) (arena arrays n ins) init s :=
  transformReduceA_eq ok hs ops init (fun _ pr => transformReduceE_const_tri pr hs hce ha 0 init) s

/-- **C72 (effects)** (partial: loads must keep the order of the structs). `transform_op` sees every element of every array exactly
once, in order, elements with the same index together; exceptions leave the function at once. -/
theorem transformReduceArrays_effects_partial (ok : InputArraysOk ins n arrays)
    (ho : ∀ I ∈ ins, ∀ w, 0 < w → w ≤ e.size → ¬ Unordered (I.F.env w)) (wf : e.WF) (hce : e.constEval = false) (hpt : e.strictPtr = false)
    (hf : e.Fits n) (hr : ReachesAlignment e n) (he : ¬ EndsAtFirstAligned e n) (ha : e.pol.assumeMatchingSize = true → e.size ∣ n)
    (ops : ROps σ (List α) β τ) (init : τ) (s : σ) :
    ArrayEffectsOk e ins n arrays (transformReduceA zero junk e ins n (loggedR ops) arrays init (s, [])) := by
  refine effects (transformReduce_effects (t := ⟨e, bases n ins, 0, n⟩) (bases_ne ok) arena_bases wf hce hpt hf hr he ha ops init s) ?_
  rw [run_eq ok wf hce hpt hf hr he ha, viewOps_ordered ho]

/-- **C72 (effects, constant evaluation).** During constant evaluation `transform_op` sees every element of every array exactly once, in
order, elements with the same index together, for all element types: only single elements are loaded. -/
theorem transformReduceArrays_const_effects (ok : InputArraysOk ins n arrays) (hs : 0 < e.size) (hce : e.constEval = true)
    (ha : e.pol.assumeMatchingSize = true → e.size ∣ n) (ops : ROps σ (List α) β τ) (init : τ) (s : σ) :
    ArrayEffectsOk e ins n arrays (transformReduceA zero junk e ins n (loggedR ops) arrays init (s, [])) := by
  refine effects (transformReduce_const_effects (t := ⟨e, bases n ins, 0, n⟩) (bases_ne ok) arena_bases hs hce ha ops init s) ?_
  refine transformReduceL_const_congr (t := ⟨e, bases n ins, 0, n⟩) (loggedR ops) hce (fun p hp => ?_) init (s, [])
  have ok' : InsOk ⟨e, bases n ins, 0, n⟩ (arena arrays n ins) := ⟨bases_ne ok, arena_bases⟩
  rw [loadArraysInvoke_eq ok (loggedR ops) (by simp) (by omega) hs hp, ← loadInvokeE_arena ok.ins_ne (loggedR ops) (aligned := false) (by simp) hp,
    loadInvokeE_eq ok' _ (aligned := false) (by simp) hp, loadInvokeE_eq ok' _ (aligned := false) (by simp) hp]
  show Eff.invoke (fun s => (loggedR ops).trans s (viewArgs e ins _)) = _
  rw [viewArgs_one ins _ ok.wf]
  intro a ha
  obtain ⟨b, hb, rfl⟩ := List.mem_map.1 ha
  have := ok'.ins_le b hb
  simp only [slice, List.length_take, List.length_drop]
  have hn : p + 1 ≤ n := hp
  simp only at this
  omega

private theorem effects_with (ok : InputArraysOk ins n arrays) (wf : e.WF) (hce : e.constEval = false) (hpt : e.strictPtr = false)
    (hf : e.Fits n) (hr : ReachesAlignment e n) (he : ¬ EndsAtFirstAligned e n) (ha : e.pol.assumeMatchingSize = true → e.size ∣ n)
    (ops : ROps σ (List α) β τ) (init : τ) (s : σ) (S : List (REvent (List α) β τ) → Nat → Prop) (h0 : S [] 0)
    (h3 : ∀ log ev p, (∀ i, transformedArgs i [ev] = []) → transformedRows [ev] = [] → S log p → S (log ++ [ev]) p)
    (h4 : ∀ log p w r, 0 < w → w ≤ e.size → p + w ≤ n → S log p → S (log ++ [.trans (viewArgs e ins (argsAt arrays ins w p)) r]) (p + w)) :
    EffectsWith e.size ins.length n S (transformReduceA zero junk e ins n (loggedR ops) arrays init (s, [])) := by
  have hp := (reaches_iff wf).1 hr
  rw [ends_iff wf] at he
  have hne : ∀ w p, argsAt arrays ins w p ≠ [] := fun w p => by simpa [argsAt] using ok.ins_ne
  have pr := logged_primsS (t := ⟨e, bases n ins, 0, n⟩) (m := ins.length) (S := S) (U0 := fun _ => False) ops
    (loadArraysInvoke zero junk e ins (loggedR ops) arrays) (fun w p => viewArgs e ins (argsAt arrays ins w p))
    (fun w p _ _ => ⟨by rw [viewArgs_length]; simp [argsAt], viewArgs_ne (hne w p), viewArgs_mem argsAt_mem⟩)
    (fun aligned p w h1 h2 h3 => by
      obtain ⟨g1, g2⟩ := WidthOk.pos wf.size_pos h3
      exact loadArraysInvoke_eq ok (loggedR ops) h1 g1 g2 h2) h3
    (fun log p w r hw hle h => by
      obtain ⟨g1, g2⟩ := WidthOk.pos wf.size_pos hw
      exact h4 log p w r g1 g2 hle h)
  exact effectsWith_of_tri h0 (transformReduceE_tri pr wf hce hpt hf (by show n = 0 ∨ proCount e n < n; omega) ha 0 init)

/-- **C72 (effects, any loads)** (partial: the order in which the elements of one load are seen is left open). Whatever the order of the
lanes is, `transform_op` is given every element of every array exactly once, `reduce_op` combines as many pairs as there are elements,
and exceptions leave the function at once. -/
theorem transformReduceArrays_each_once_partial (ok : InputArraysOk ins n arrays) (wf : e.WF) (hce : e.constEval = false)
    (hpt : e.strictPtr = false) (hf : e.Fits n) (hr : ReachesAlignment e n) (he : ¬ EndsAtFirstAligned e n)
    (ha : e.pol.assumeMatchingSize = true → e.size ∣ n) (ops : ROps σ (List α) β τ) (init : τ) (s : σ) :
    EffectsWith e.size ins.length n (EachOnce ins n arrays) (transformReduceA zero junk e ins n (loggedR ops) arrays init (s, [])) := by
  refine effects_with ok wf hce hpt hf hr he ha ops init s _ ?_ ?_ ?_
  · intro i hi
    simp [transformedArgs]
  · intro log ev p h1 _ h i hi
    rw [transformedArgs_append, h1, List.append_nil]
    exact h i hi
  · intro log p w r _ _ hle h
    exact eachOnce_step ok hle h

/-- **C72 (effects, loads that permute alike)** (partial: as before). If all loads permute the lanes in the same way, or there is only one
array, elements with the same index are passed together. -/
theorem transformReduceArrays_rows_partial (ok : InputArraysOk ins n arrays) (hu : UniformOrder e ins) (wf : e.WF)
    (hce : e.constEval = false) (hpt : e.strictPtr = false) (hf : e.Fits n) (hr : ReachesAlignment e n) (he : ¬ EndsAtFirstAligned e n)
    (ha : e.pol.assumeMatchingSize = true → e.size ∣ n) (ops : ROps σ (List α) β τ) (init : τ) (s : σ) :
    EffectsWith e.size ins.length n (RowsOnce ins n arrays) (transformReduceA zero junk e ins n (loggedR ops) arrays init (s, [])) := by
  refine effects_with ok wf hce hpt hf hr he ha ops init s _ ?_ ?_ ?_
  · simp [RowsOnce, transformedRows]
  · intro log ev p _ h2 h
    unfold RowsOnce
    rw [transformedRows_append, h2, List.append_nil]
    exact h
  · intro log p w r hw hW hle h
    exact rowsOnce_step ok hu hw hW hle h

private theorem transformed_eq (R : REnv (List α) β τ) (hi : R.ins = bases n ins) (hn : R.n = n) (g : List (List α) → β) :
    transformed R g (arena arrays n ins) = transformedArrays ins n arrays g := by
  unfold transformed transformedArrays
  rw [hi, hn]
  apply List.map_congr_left
  intro i hi
  rw [arena_at (List.mem_range.1 hi)]

/-- **C72 (value, what is combined).** The result is a generalized sum of `init` and what `transform_op` returns for the loaded lanes. -/
theorem transformReduceArrays_outs (ok : InputArraysOk ins n arrays) (wf : e.WF)
    (hce : e.constEval = false) (hpt : e.strictPtr = false) (hf : e.Fits n) (hr : ReachesAlignment e n) (he : ¬ EndsAtFirstAligned e n)
    (ha : e.pol.assumeMatchingSize = true → e.size ∣ n) (trans : VecOp (List α) β)
    (rB : β → β → β) (rT : τ → τ → τ) (cvt : β → τ) (hredB : List β → β) (hredT : List τ → τ) (hT : HReduce rT hredT)
    (hB : HReduce rB hredB)
    (hom : (∀ a b, cvt (rB a b) = rT (cvt a) (cvt b)) ∨ (e.pol.prefersAligned = false ∧ e.pol.autoPrologue = false)) (init : τ) (s : σ) :
    ∃ v, transformReduceA zero junk e ins n (pureOps trans rT cvt hredB hredT) arrays init s = .ok (s, some v) ∧
      GSum rT (init :: (outs (viewOp e ins trans) (bases n ins) (arena arrays n ins) 0 (proWidths e n ++ mainWidths e n)).map cvt) v := by
  have hp := (reaches_iff wf).1 hr
  have he' := he
  rw [ends_iff wf] at he'
  let R : REnv (List α) β τ := ⟨e, bases n ins, n, viewOp e ins trans, rB, rT, cvt, hredB, hredT⟩
  have okR : InputsOk R (arena arrays n ins) := ⟨bases_ne ok, arena_bases⟩
  obtain ⟨v, ys, h1, h2, h3⟩ := transformReduce_gsum okR wf hce hf (show n = 0 ∨ proCount e n < n by omega)
    (by intro h; exact absurd h (by show ¬ e.strictPtr = true; simp [hpt])) ha hT (fun _ => hB) init
  have hrun : transformReduceA zero junk e ins n (pureOps trans rT cvt hredB hredT) arrays init s = .ok (s, some v) := by
    rw [run_eq ok wf hce hpt hf hr he ha]
    have := transformReduceE_pure (σ := σ) R (arena arrays n ins) init s
    rw [h1] at this
    exact this
  refine ⟨v, hrun, ?_⟩
  rw [outs_append, List.map_append, Nat.zero_add]
  rcases hom with hom | ⟨a1, a2⟩
  · have := h2.subst hom (pre := [init]) (post := vals R (arena arrays n ins) (proWidths e n).sum (mainWidths e n)) (v := v)
      (by simpa using h3)
    simpa [vals] using this
  · have hpc : proWidths e n = [] := by
      unfold proWidths
      split
      · rfl
      · have : proCount e n = 0 := by simp [proCount, useAligned, maybeAnyway, a1, a2]
        rw [this, bitsAsc_zero]
    have h2' : Grouped rB cvt ([] : List β) ys := by
      have : outs R.trans R.ins (arena arrays n ins) 0 (proWidths R.e R.n) = [] := by
        show outs _ _ _ 0 (proWidths e n) = []
        rw [hpc]; rfl
      rw [this] at h2
      exact h2
    obtain ⟨ps, bs, e1, e2, e3⟩ := h2'
    have hy : ys = [] := by
      cases e2 with
      | nil => simpa using e3
      | @cons x b xs bs hx hxs =>
        have := hx.ne_nil
        simp only [List.flatten_cons, List.append_eq_nil_iff] at e1
        exact absurd e1.1 this
    subst hy
    rw [hpc]
    have h3' : GSum rT (init :: ([] ++ vals R (arena arrays n ins) (proWidths e n).sum (mainWidths e n))) v := h3
    rw [hpc] at h3'
    simpa [vals, outs] using h3'

/-- **C72 (value)** (partial: the order of the lanes must be the same for all inputs, see `transformReduceArrays_wrong`). The result is
a generalized sum of `init` and the results for the elements with the same index — under the condition of C14 on the conversion
to the aggregation type. Arrays of three floats with eight lanes, whose loads permute the lanes, are included if all inputs are such
arrays, in particular if there is only one input. -/
theorem transformReduceArrays_gsum_partial (ok : InputArraysOk ins n arrays) (hu : UniformOrder e ins) (wf : e.WF)
    (hce : e.constEval = false) (hpt : e.strictPtr = false) (hf : e.Fits n) (hr : ReachesAlignment e n) (he : ¬ EndsAtFirstAligned e n)
    (ha : e.pol.assumeMatchingSize = true → e.size ∣ n) (trans : VecOp (List α) β) (g : List (List α) → β) (hg : LaneWise trans g)
    (rB : β → β → β) (rT : τ → τ → τ) (cvt : β → τ) (hredB : List β → β) (hredT : List τ → τ) (hT : HReduce rT hredT)
    (hB : HReduce rB hredB)
    (hom : (∀ a b, cvt (rB a b) = rT (cvt a) (cvt b)) ∨ (e.pol.prefersAligned = false ∧ e.pol.autoPrologue = false)) (init : τ) (s : σ) :
    ∃ v, transformReduceA zero junk e ins n (pureOps trans rT cvt hredB hredT) arrays init s = .ok (s, some v) ∧
      GSum rT (init :: (transformedArrays ins n arrays g).map cvt) v := by
  have hp := (reaches_iff wf).1 hr
  obtain ⟨v, hrun, key⟩ := transformReduceArrays_outs (zero := zero) (junk := junk) ok wf hce hpt hf hr he ha trans rB rT cvt hredB hredT hT hB hom init s
  refine ⟨v, hrun, ?_⟩
  have hs := widths_sum e n hp
  have hperm : (outs (viewOp e ins trans) (bases n ins) (arena arrays n ins) 0 (proWidths e n ++ mainWidths e n)).Perm
      (transformedArrays ins n arrays g) := by
    refine (outs_viewOp_perm hg hu ok.wf (bases_ne ok) (by simp [bases]) arena_bases 0 _ (by rw [List.sum_append]; omega)).trans ?_
    rw [outs_laneWise hg (bases_ne ok) arena_bases 0 _ (by rw [List.sum_append]; omega), List.sum_append, hs]
    have : transformedArrays ins n arrays g =
        (List.range n).map fun i => g ((bases n ins).filterMap fun a => (arena arrays n ins)[a + (0 + i)]?) := by
      unfold transformedArrays
      apply List.map_congr_left
      intro i hi
      rw [Nat.zero_add, arena_at (List.mem_range.1 hi)]
    rw [this]
  exact GSum.perm ((hperm.map cvt).cons init) key

/-- **C72 (value, associative and commutative)** (partial: as above). For an associative and commutative operation on one type the
result is the fold over the elements in their order. -/
theorem transformReduceArrays_fold_partial (ok : InputArraysOk ins n arrays) (hu : UniformOrder e ins) (wf : e.WF)
    (hce : e.constEval = false) (hpt : e.strictPtr = false) (hf : e.Fits n) (hr : ReachesAlignment e n) (he : ¬ EndsAtFirstAligned e n)
    (ha : e.pol.assumeMatchingSize = true → e.size ∣ n) (trans : VecOp (List α) τ) (g : List (List α) → τ) (hg : LaneWise trans g)
    (r : τ → τ → τ) (hassoc : ∀ a b c, r (r a b) c = r a (r b c)) (hcomm : ∀ a b, r a b = r b a) (hredB hredT : List τ → τ)
    (hT : HReduce r hredT) (hB : HReduce r hredB) (init : τ) (s : σ) :
    transformReduceA zero junk e ins n (pureOps trans r id hredB hredT) arrays init s =
      .ok (s, some ((transformedArrays ins n arrays g).foldl r init)) := by
  obtain ⟨v, h1, h2⟩ := transformReduceArrays_gsum_partial (zero := zero) (junk := junk) ok hu wf hce hpt hf hr he ha trans g hg r r id
    hredB hredT hT hB (Or.inl fun _ _ => rfl) init s
  rw [h1, h2.eq_foldl hassoc hcomm, List.map_id]

/-- **C72 (constant evaluation).** During constant evaluation the result is the left fold for every operation and all element types. -/
theorem transformReduceArrays_const_fold (ok : InputArraysOk ins n arrays) (hs : 0 < e.size) (hce : e.constEval = true)
    (ha : e.pol.assumeMatchingSize = true → e.size ∣ n) (trans : VecOp (List α) β) (g : List (List α) → β) (hg : LaneWise trans g)
    (rB : β → β → β) (rT : τ → τ → τ) (cvt : β → τ) (hredB : List β → β) (hredT : List τ → τ) (init : τ) (s : σ) :
    transformReduceA zero junk e ins n (pureOps trans rT cvt hredB hredT) arrays init s =
      .ok (s, some (((transformedArrays ins n arrays g).map cvt).foldl rT init)) := by
  let R : REnv (List α) β τ := ⟨e, bases n ins, n, viewOp e ins trans, rB, rT, cvt, hredB, hredT⟩
  let R0 : REnv (List α) β τ := ⟨e, bases n ins, n, trans, rB, rT, cvt, hredB, hredT⟩
  have okR : InputsOk R (arena arrays n ins) := ⟨bases_ne ok, arena_bases⟩
  have okR0 : InputsOk R0 (arena arrays n ins) := ⟨bases_ne ok, arena_bases⟩
  have h0 := transformReduce_const_fold okR0 hce ha g hg init
  have h1 : transformReduce R (arena arrays n ins) init = transformReduce R0 (arena arrays n ins) init := by
    rw [transformReduce_const okR hce ha init, transformReduce_const okR0 hce ha init]
    have : vals R (arena arrays n ins) 0 (List.replicate n 1) = vals R0 (arena arrays n ins) 0 (List.replicate n 1) := by
      unfold vals
      show List.map cvt (outs (viewOp e ins trans) (bases n ins) _ _ _) = List.map cvt (outs trans (bases n ins) _ _ _)
      rw [outs_viewOp_one ok.wf arena_bases 0 n (by omega)]
    show Outcome.ok (List.foldl rT init (vals R (arena arrays n ins) 0 (List.replicate n 1))) =
      Outcome.ok (List.foldl rT init (vals R0 (arena arrays n ins) 0 (List.replicate n 1)))
    rw [this]
  rw [const_eq ok hs hce ha]
  have h2 := transformReduceE_pure (σ := σ) R (arena arrays n ins) init s
  rw [h1, h0, transformed_eq R0 rfl rfl] at h2
  exact h2

/-! ### The hypotheses are met -/

/-- `size` lanes of floats; the first range is aligned to the element only. -/
def dotEnv (size : Nat) (ce : Bool) : Env :=
  { size := size, sz := 4, al := fun w => stdBitCeil (w * 4), pol := ⟨[]⟩, addr := 0x1004, constEval := ce }

/-- Array 0 contains points of three floats. -/
def pointsIn : Range := ⟨0, 3, ForEachStruct.pointFamily⟩
/-- Array 1 contains numbers. -/
def weightsIn : Range := ⟨1, 1, scalarFamily⟩

/-- The weighted sum of the coordinates: the members of the point times the number, if there is one. -/
def weigh (xs : List (List Nat)) : Nat := ((xs.getD 0 []).sum) * ((xs.getD 1 [1]).getD 0 1)

def weighOp : VecOp (List Nat) Nat where
  call args := (List.range ((args.getD 0 []).length)).map fun i => weigh (args.filterMap (·[i]?))
  shape w args hne h := by
    cases args with
    | nil => exact absurd rfl hne
    | cons a args => simp [h a (by simp)]

theorem weighOp_laneWise : LaneWise weighOp weigh := by
  intro w args hne h
  cases args with
  | nil => exact absurd rfl hne
  | cons a args => simp [weighOp, h a (by simp)]

theorem pointsIn_ok (n : Nat) {a : List Nat} (ha : n * 3 ≤ a.length) : InputArraysOk [pointsIn] n [a] := by
  refine ⟨by simp, ?_, ?_⟩
  · intro I hI
    simp only [List.mem_cons, List.not_mem_nil, or_false] at hI
    subst hI
    exact ForEachStruct.pointFamily_wf
  · intro I hI
    simp only [List.mem_cons, List.not_mem_nil, or_false] at hI
    subst hI
    exact ⟨a, rfl, ha⟩

theorem weighted_ok (n : Nat) {a b : List Nat} (ha : n * 3 ≤ a.length) (hb : n ≤ b.length) :
    InputArraysOk [pointsIn, weightsIn] n [a, b] := by
  refine ⟨by simp, ?_, ?_⟩
  · intro I hI
    simp only [List.mem_cons, List.not_mem_nil, or_false] at hI
    rcases hI with rfl | rfl
    · exact ForEachStruct.pointFamily_wf
    · exact scalarFamily_wf
  · intro I hI
    simp only [List.mem_cons, List.not_mem_nil, or_false] at hI
    rcases hI with rfl | rfl
    · exact ⟨a, rfl, ha⟩
    · exact ⟨b, rfl, by simpa [weightsIn] using hb⟩

theorem dot_wf {size : Nat} (hs : size = 4 ∨ size = 8) : (dotEnv size false).WF := by
  rcases hs with rfl | rfl
  · exact libstdcxx_wf _ (show 0 < 4 by decide) ⟨2, rfl⟩ rfl (show 4 ∣ 0x1004 by decide) ⟨[], rfl⟩
      (show stdBitCeil (4 * 4) ≤ 4000 by decide)
  · exact libstdcxx_wf _ (show 0 < 8 by decide) ⟨2, rfl⟩ rfl (show 4 ∣ 0x1004 by decide) ⟨[], rfl⟩
      (show stdBitCeil (8 * 4) ≤ 4000 by decide)

/-- One array of points on AVX (eight lanes, loads permute): the sum of all coordinates, for all points. -/
example (n : Nat) (hn : n * 4 < 2 ^ 64) (a : List Nat) (ha : n * 3 ≤ a.length) (init : Nat) :
    transformReduceA 0 (fun _ => 0) (dotEnv 8 false) [pointsIn] n (pureOps (σ := Unit) weighOp (· + ·) id List.sum List.sum) [a] init () =
      .ok ((), some ((transformedArrays [pointsIn] n [a] weigh).foldl (· + ·) init)) := by
  refine transformReduceArrays_fold_partial (pointsIn_ok n ha) ?_ (dot_wf (Or.inr rfl)) rfl rfl hn ?_ ?_ ?_ _ _ weighOp_laneWise _
    Nat.add_assoc Nat.add_comm _ _ hreduce_sum hreduce_sum init ()
  · intro w _ _ I hI J hJ
    simp only [List.mem_cons, List.not_mem_nil, or_false] at hI hJ
    subst hI; subst hJ; rfl
  · intro h
    exact absurd h (by simp [dotEnv, Policy.prefersAligned])
  · intro h
    exact absurd h.1 (by simp [dotEnv, Policy.prefersAligned, Policy.autoPrologue])
  · intro h
    exact absurd h (by simp [dotEnv, Policy.assumeMatchingSize])

private theorem four_ordered : ∀ I ∈ [pointsIn, weightsIn], ∀ w, 0 < w → w ≤ 4 → ¬ Unordered (I.F.env w) := by
  intro I hI w hw hW hu
  have h8 : w = 8 := by
    simp only [List.mem_cons, List.not_mem_nil, or_false] at hI
    rcases hI with rfl | rfl
    · exact hu.2.2.2.2.1
    · exact absurd hu.2.2.1 (by simp [weightsIn, scalarFamily])
  omega

/-- Points and numbers on SSE (four lanes), for all operations: each point is seen once, in order, with its number. -/
example (n : Nat) (hn : n * 4 < 2 ^ 64) (a b : List Nat) (ha : n * 3 ≤ a.length) (hb : n ≤ b.length) (ops : ROps Nat (List Nat) Nat Nat)
    (init s : Nat) :
    ArrayEffectsOk (dotEnv 4 false) [pointsIn, weightsIn] n [a, b]
      (transformReduceA 0 (fun _ => 0) (dotEnv 4 false) [pointsIn, weightsIn] n (loggedR ops) [a, b] init (s, [])) := by
  refine transformReduceArrays_effects_partial (weighted_ok n ha hb) four_ordered (dot_wf (Or.inl rfl)) rfl rfl hn ?_ ?_ ?_ ops init s
  · intro h
    exact absurd h (by simp [dotEnv, Policy.prefersAligned])
  · intro h
    exact absurd h.1 (by simp [dotEnv, Policy.prefersAligned, Policy.autoPrologue])
  · intro h
    exact absurd h (by simp [dotEnv, Policy.assumeMatchingSize])

/-- Points and numbers during constant evaluation, eight lanes: the left fold for every operation. -/
example (n : Nat) (a b : List Nat) (ha : n * 3 ≤ a.length) (hb : n ≤ b.length) (init : Nat) :
    transformReduceA 0 (fun _ => 0) (dotEnv 8 true) [pointsIn, weightsIn] n (pureOps (σ := Unit) weighOp (· - ·) id List.sum List.sum)
      [a, b] init () = .ok ((), some (((transformedArrays [pointsIn, weightsIn] n [a, b] weigh).map id).foldl (· - ·) init)) :=
  transformReduceArrays_const_fold (weighted_ok n ha hb) (show 0 < 8 by decide) rfl
    (fun h => absurd h (by simp [dotEnv, Policy.assumeMatchingSize])) _ _ weighOp_laneWise (· - ·) _ _ _ _ init ()

/-- **C72** is false as stated if inputs with and without permuted lanes are mixed: eight points and eight numbers on AVX; the points are
multiplied with numbers of other points, and the sum is wrong although the operations are associative and commutative. -/
theorem transformReduceArrays_wrong : ∃ (a b : List Nat) (v : Nat), InputArraysOk [pointsIn, weightsIn] 8 [a, b] ∧
    transformReduceA 0 (fun _ => 0) (dotEnv 8 false) [pointsIn, weightsIn] 8 (pureOps (σ := Unit) weighOp (· + ·) id List.sum List.sum)
      [a, b] 0 () = .ok ((), some v) ∧
    v ≠ (transformedArrays [pointsIn, weightsIn] 8 [a, b] weigh).foldl (· + ·) 0 :=
  ⟨List.range 24, List.range 8, 1128, weighted_ok 8 (by decide) (by decide), by decide +kernel, by decide +kernel⟩

/-! ## The theorems applied to concrete data -/

example (ops : ROps Nat (List Nat) Nat Nat) (init s : Nat) :=
  transformReduceArrays_const_effects (zero := 0) (junk := fun _ => 0) (e := dotEnv 8 true)
    (weighted_ok 3 (a := List.range 9) (b := [10, 20, 30]) (by decide) (by decide)) (show 0 < 8 by decide) rfl
    (fun h => absurd h (by simp [dotEnv, Policy.assumeMatchingSize])) ops init s

example (n : Nat) (hn : n * 4 < 2 ^ 64) (a b : List Nat) (ha : n * 3 ≤ a.length) (hb : n ≤ b.length) (ops : ROps Nat (List Nat) Nat Nat)
    (init s : Nat) : EffectsWith 8 2 n (EachOnce [pointsIn, weightsIn] n [a, b])
      (transformReduceA 0 (fun _ => 0) (dotEnv 8 false) [pointsIn, weightsIn] n (loggedR ops) [a, b] init (s, [])) := by
  refine transformReduceArrays_each_once_partial (weighted_ok n ha hb) (dot_wf (Or.inr rfl)) rfl rfl hn ?_ ?_ ?_ ops init s
  · intro h
    exact absurd h (by simp [dotEnv, Policy.prefersAligned])
  · intro h
    exact absurd h.1 (by simp [dotEnv, Policy.prefersAligned, Policy.autoPrologue])
  · intro h
    exact absurd h (by simp [dotEnv, Policy.assumeMatchingSize])

example (n : Nat) (hn : n * 4 < 2 ^ 64) (a : List Nat) (ha : n * 3 ≤ a.length) (ops : ROps Nat (List Nat) Nat Nat)
    (init s : Nat) : EffectsWith 8 1 n (RowsOnce [pointsIn] n [a])
      (transformReduceA 0 (fun _ => 0) (dotEnv 8 false) [pointsIn] n (loggedR ops) [a] init (s, [])) := by
  refine transformReduceArrays_rows_partial (pointsIn_ok n ha) ?_ (dot_wf (Or.inr rfl)) rfl rfl hn ?_ ?_ ?_ ops init s
  · intro w _ _ I hI J hJ
    simp only [List.mem_cons, List.not_mem_nil, or_false] at hI hJ
    subst hI; subst hJ; rfl
  · intro h
    exact absurd h (by simp [dotEnv, Policy.prefersAligned])
  · intro h
    exact absurd h.1 (by simp [dotEnv, Policy.prefersAligned, Policy.autoPrologue])
  · intro h
    exact absurd h (by simp [dotEnv, Policy.assumeMatchingSize])

example (n : Nat) (hn : n * 4 < 2 ^ 64) (a : List Nat) (ha : n * 3 ≤ a.length) (init : Nat) :
    ∃ v, transformReduceA 0 (fun _ => 0) (dotEnv 8 false) [pointsIn] n (pureOps (σ := Unit) weighOp (· + ·) id List.sum List.sum) [a] init () =
      .ok ((), some v) ∧ GSum (· + ·) (init :: (transformedArrays [pointsIn] n [a] weigh).map id) v := by
  refine transformReduceArrays_gsum_partial (pointsIn_ok n ha) ?_ (dot_wf (Or.inr rfl)) rfl rfl hn ?_ ?_ ?_ _ _ weighOp_laneWise (· + ·) (· + ·) id _ _ hreduce_sum hreduce_sum
    (.inl fun _ _ => rfl) init ()
  · intro w _ _ I hI J hJ
    simp only [List.mem_cons, List.not_mem_nil, or_false] at hI hJ
    subst hI; subst hJ; rfl
  · intro h
    exact absurd h (by simp [dotEnv, Policy.prefersAligned])
  · intro h
    exact absurd h.1 (by simp [dotEnv, Policy.prefersAligned, Policy.autoPrologue])
  · intro h
    exact absurd h (by simp [dotEnv, Policy.assumeMatchingSize])

end Vir
