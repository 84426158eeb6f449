import Verif.Lemmas.Resolve

/-!
# C87: every documented call form reaches the overload documented for it
-/

namespace Vir.Resolve
open Spec

variable {Ty : Type} [DecidableEq Ty]

/-- **C87 (iterators).** A call with arguments in the roles of a documented iterator form runs what is documented for that form, whatever
else the types model; the only possible error is a callable that cannot be invoked as documented. -/
theorem iterator_forms (W : Types Ty) (al : Algo) (f : List Role) (hf : f ∈ iteratorForms al) (args : List (Arg Ty)) (h : Fit W f args) :
    (CallablesOk W f args → call W (virSet al) args = .runs (planOf al f)) ∧
    (¬ CallablesOk W f args → call W (virSet al) args = .hardError) := by
  cases al <;> simp only [iteratorForms, List.mem_cons, List.not_mem_nil, or_false] at hf
  · subst hf
    match args, h with
    | [x0, x1, x2, x3], h =>
      simp only [Fit, Plays, and_true] at h
      have hc : CallablesOk W [.policy, .first1, .last1, .op] [x0, x1, x2, x3] ↔ W.accepts (W.decay x3.ty) (.vectors 1) = true ∧ True := by
        callables
      rw [hc]
      cases hop : W.accepts (W.decay x3.ty) (.vectors 1) <;>
      call_simp [h, hop]
  · rcases hf with rfl | rfl
    · match args, h with
      | [x0, x1, x2, x3, x4], h =>
        simp only [Fit, Plays, and_true] at h
        have hc : CallablesOk W [.policy, .first1, .last1, .dFirst, .op] [x0, x1, x2, x3, x4] ↔ W.accepts (W.decay x4.ty) (.vectors 1) = true ∧ True := by
          callables
        rw [hc]
        cases hop : W.accepts (W.decay x4.ty) (.vectors 1) <;>
        call_simp [h, hop]
    · match args, h with
      | [x0, x1, x2, x3, x4, x5], h =>
        simp only [Fit, Plays, and_true] at h
        have hc : CallablesOk W [.policy, .first1, .last1, .first2, .dFirst, .op] [x0, x1, x2, x3, x4, x5] ↔ W.accepts (W.decay x5.ty) (.vectors 2) = true ∧ True := by
          callables
        rw [hc]
        cases hop : W.accepts (W.decay x5.ty) (.vectors 2) <;>
        call_simp [h, hop]
  · rcases hf with rfl | rfl | rfl
    · match args, h with
      | [x0, x1, x2, x3, x4], h =>
        simp only [Fit, Plays, and_true] at h
        have hc : CallablesOk W [.policy, .first1, .last1, .first2, .init] [x0, x1, x2, x3, x4] ↔ True ∧ True := by
          callables
        rw [hc]
        call_simp [h]
    · match args, h with
      | [x0, x1, x2, x3, x4, x5, x6], h =>
        simp only [Fit, Plays, and_true] at h
        have hc : CallablesOk W [.policy, .first1, .last1, .first2, .init, .reduceOp, .op] [x0, x1, x2, x3, x4, x5, x6] ↔ W.accepts (W.decay x6.ty) (.vectors 2) = true ∧ W.accepts (W.decay x5.ty) (.vectors 2) = true := by
          callables
        rw [hc]
        cases hop : W.accepts (W.decay x6.ty) (.vectors 2) <;>
        cases hro : W.accepts (W.decay x5.ty) (.vectors 2) <;>
        call_simp [h, hop, hro]
    · match args, h with
      | [x0, x1, x2, x3, x4, x5], h =>
        simp only [Fit, Plays, and_true] at h
        have hc : CallablesOk W [.policy, .first1, .last1, .init, .reduceOp, .op] [x0, x1, x2, x3, x4, x5] ↔ W.accepts (W.decay x5.ty) (.vectors 1) = true ∧ W.accepts (W.decay x4.ty) (.vectors 2) = true := by
          callables
        rw [hc]
        cases hop : W.accepts (W.decay x5.ty) (.vectors 1) <;>
        cases hro : W.accepts (W.decay x4.ty) (.vectors 2) <;>
        call_simp [h, hop, hro]
  · rcases hf with rfl | rfl | rfl
    · match args, h with
      | [x0, x1, x2], h =>
        simp only [Fit, Plays, and_true] at h
        have hc : CallablesOk W [.policy, .first1, .last1] [x0, x1, x2] ↔ True ∧ True := by
          callables
        rw [hc]
        call_simp [h]
    · match args, h with
      | [x0, x1, x2, x3], h =>
        simp only [Fit, Plays, and_true] at h
        have hc : CallablesOk W [.policy, .first1, .last1, .init] [x0, x1, x2, x3] ↔ True ∧ True := by
          callables
        rw [hc]
        call_simp [h]
    · match args, h with
      | [x0, x1, x2, x3, x4], h =>
        simp only [Fit, Plays, and_true] at h
        have hc : CallablesOk W [.policy, .first1, .last1, .init, .reduceOp] [x0, x1, x2, x3, x4] ↔ True ∧ W.accepts (W.decay x4.ty) (.vectors 2) = true := by
          callables
        rw [hc]
        cases hro : W.accepts (W.decay x4.ty) (.vectors 2) <;>
        call_simp [h, hro]
  · subst hf
    match args, h with
    | [x0, x1, x2, x3], h =>
      simp only [Fit, Plays, and_true] at h
      have hc : CallablesOk W [.policy, .first1, .last1, .op] [x0, x1, x2, x3] ↔ W.accepts (W.decay x3.ty) (.vectors 1) = true ∧ True := by
        callables
      rw [hc]
      cases hop : W.accepts (W.decay x3.ty) (.vectors 1) <;>
      call_simp [h, hop]

set_option maxHeartbeats 1000000 in
/-- **C87 (ranges, exactly).** A call with arguments in the roles of a documented range form runs what is documented for that form if and
only if the same arguments do not also fit an iterator form, begin and end of the first range have the same type, and the output range is
an lvalue (or const). -/
theorem range_forms (W : Types Ty) (sane : Sane W) (al : Algo) (f : List Role) (hf : f ∈ rangeForms al) (args : List (Arg Ty))
    (h : Fit W f args) (hc : CallablesOk W f args) :
    call W (virSet al) args = .runs (planOf al f) ↔
      (∀ g ∈ iteratorForms al, ¬ Fit W g args) ∧
      (∀ i a, at? f .rng1 = some i → args[i]? = some a → W.common a.ty = true) ∧
      (∀ i a, at? f .dRng = some i → args[i]? = some a → a.lvalue = true ∨ W.isConst a.ty = true) := by
  by_cases hg : ∀ g ∈ iteratorForms al, ¬ Fit W g args
  case neg =>
    refine iff_of_false (fun hr => ?_) (fun hr => hg hr.1)
    refine hg (fun g hgm hfit => ?_)
    by_cases hk : CallablesOk W g args
    · rw [(iterator_forms W al g hgm args hfit).1 hk] at hr
      exact planOf_ne al f hf g hgm (CallResult.runs.inj hr)
    · rw [(iterator_forms W al g hgm args hfit).2 hk] at hr
      cases hr
  cases al <;> simp only [rangeForms, List.mem_cons, List.not_mem_nil, or_false] at hf
  · subst hf
    match args, h with
    | [x0, x1, x2], h =>
      simp only [Fit, Plays, and_true] at h
      have hop : W.accepts (W.decay x2.ty) (.vectors 1) = true := hc.1 _ _ rfl rfl
      rw [commonAt W _ _ _ _ rfl rfl]
      rw [noOut W _ _ rfl]
      rw [iff_true_intro hg, true_and]
      cases c0 : W.common x1.ty <;>
      call_simp [h, planOf, valOr, at?, List.findIdx?_cons, hop, c0]
  · rcases hf with rfl | rfl
    · match args, h with
      | [x0, x1, x2, x3], h =>
        simp only [Fit, Plays, and_true] at h
        have hop : W.accepts (W.decay x3.ty) (.vectors 1) = true := hc.1 _ _ rfl rfl
        have hz := (sane _).1 h.2.1
        rw [commonAt W _ _ _ _ rfl rfl]
        rw [outAt W _ _ _ _ rfl rfl]
        rw [iff_true_intro hg, true_and]
        cases c0 : W.common x1.ty <;>
        cases c1 : x2.lvalue <;>
        cases c2 : W.isConst x2.ty <;>
        call_simp [h, planOf, valOr, at?, List.findIdx?_cons, hop, hz, c0, c1, c2]
    · match args, h with
      | [x0, x1, x2, x3, x4], h =>
        simp only [Fit, Plays, and_true] at h
        have hop : W.accepts (W.decay x4.ty) (.vectors 2) = true := hc.1 _ _ rfl rfl
        rw [commonAt W _ _ _ _ rfl rfl]
        rw [outAt W _ _ _ _ rfl rfl]
        rw [iff_true_intro hg, true_and]
        have hn := hg [.policy, .first1, .last1, .dFirst, .op] (by decide)
        simp only [Fit, Plays, and_true] at hn
        by_cases e : W.decay x1.ty = W.decay x2.ty
        · cases i2 : W.isIter (W.decay x2.ty)
          · cases c0 : W.common x1.ty <;>
            cases c1 : x3.lvalue <;>
            cases c2 : W.isConst x3.ty <;>
            call_simp [h, planOf, valOr, at?, List.findIdx?_cons, hop, e, i2, c0, c1, c2]
          · have i3 : W.isIter (W.decay x3.ty) = false := by
              cases i : W.isIter (W.decay x3.ty) <;> simp_all
            cases c0 : W.common x1.ty <;>
            cases c1 : x3.lvalue <;>
            cases c2 : W.isConst x3.ty <;>
            call_simp [h, planOf, valOr, at?, List.findIdx?_cons, hop, e, i2, i3, c0, c1, c2]
        · cases c0 : W.common x1.ty <;>
          cases c1 : x3.lvalue <;>
          cases c2 : W.isConst x3.ty <;>
          call_simp [h, planOf, valOr, at?, List.findIdx?_cons, hop, e, c0, c1, c2]
  · rcases hf with rfl | rfl | rfl
    · match args, h with
      | [x0, x1, x2, x3], h =>
        simp only [Fit, Plays, and_true] at h
        rw [commonAt W _ _ _ _ rfl rfl]
        rw [noOut W _ _ rfl]
        rw [iff_true_intro hg, true_and]
        cases c0 : W.common x1.ty <;>
        call_simp [h, planOf, valOr, at?, List.findIdx?_cons, c0]
    · match args, h with
      | [x0, x1, x2, x3, x4, x5], h =>
        simp only [Fit, Plays, and_true] at h
        have hop : W.accepts (W.decay x5.ty) (.vectors 2) = true := hc.1 _ _ rfl rfl
        have hro : W.accepts (W.decay x4.ty) (.vectors 2) = true := hc.2 _ _ rfl rfl
        rw [commonAt W _ _ _ _ rfl rfl]
        rw [noOut W _ _ rfl]
        rw [iff_true_intro hg, true_and]
        have hn := hg [.policy, .first1, .last1, .init, .reduceOp, .op] (by decide)
        simp only [Fit, Plays, and_true] at hn
        by_cases e : W.decay x1.ty = W.decay x2.ty
        · have i2 : W.isIter (W.decay x2.ty) = false := by
            cases i : W.isIter (W.decay x2.ty) <;> simp_all
          cases c0 : W.common x1.ty <;>
          call_simp [h, planOf, valOr, at?, List.findIdx?_cons, hop, hro, e, i2, c0]
        · cases c0 : W.common x1.ty <;>
          call_simp [h, planOf, valOr, at?, List.findIdx?_cons, hop, hro, e, c0]
    · match args, h with
      | [x0, x1, x2, x3, x4], h =>
        simp only [Fit, Plays, and_true] at h
        have hop : W.accepts (W.decay x4.ty) (.vectors 1) = true := hc.1 _ _ rfl rfl
        have hro : W.accepts (W.decay x3.ty) (.vectors 2) = true := hc.2 _ _ rfl rfl
        rw [commonAt W _ _ _ _ rfl rfl]
        rw [noOut W _ _ rfl]
        rw [iff_true_intro hg, true_and]
        have hn := hg [.policy, .first1, .last1, .first2, .init] (by decide)
        simp only [Fit, Plays, and_true] at hn
        by_cases e : W.decay x1.ty = W.decay x2.ty
        · cases i2 : W.isIter (W.decay x2.ty)
          · cases c0 : W.common x1.ty <;>
            call_simp [h, planOf, valOr, at?, List.findIdx?_cons, hop, hro, e, i2, c0]
          · have i3 : W.isIter (W.decay x3.ty) = false := by
              cases i : W.isIter (W.decay x3.ty) <;> simp_all
            cases c0 : W.common x1.ty <;>
            call_simp [h, planOf, valOr, at?, List.findIdx?_cons, hop, hro, e, i2, i3, c0]
        · cases c0 : W.common x1.ty <;>
          call_simp [h, planOf, valOr, at?, List.findIdx?_cons, hop, hro, e, c0]
  · rcases hf with rfl | rfl | rfl
    · match args, h with
      | [x0, x1], h =>
        simp only [Fit, Plays, and_true] at h
        rw [commonAt W _ _ _ _ rfl rfl]
        rw [noOut W _ _ rfl]
        rw [iff_true_intro hg, true_and]
        cases c0 : W.common x1.ty <;>
        call_simp [h, planOf, valOr, at?, List.findIdx?_cons, c0]
    · match args, h with
      | [x0, x1, x2], h =>
        simp only [Fit, Plays, and_true] at h
        rw [commonAt W _ _ _ _ rfl rfl]
        rw [noOut W _ _ rfl]
        rw [iff_true_intro hg, true_and]
        have hn := hg [.policy, .first1, .last1] (by decide)
        simp only [Fit, Plays, and_true] at hn
        by_cases e : W.decay x1.ty = W.decay x2.ty
        · have i2 : W.isIter (W.decay x2.ty) = false := by
            cases i : W.isIter (W.decay x2.ty) <;> simp_all
          cases c0 : W.common x1.ty <;>
          call_simp [h, planOf, valOr, at?, List.findIdx?_cons, e, i2, c0]
        · cases c0 : W.common x1.ty <;>
          call_simp [h, planOf, valOr, at?, List.findIdx?_cons, e, c0]
    · match args, h with
      | [x0, x1, x2, x3], h =>
        simp only [Fit, Plays, and_true] at h
        have hro : W.accepts (W.decay x3.ty) (.vectors 2) = true := hc.2 _ _ rfl rfl
        rw [commonAt W _ _ _ _ rfl rfl]
        rw [noOut W _ _ rfl]
        rw [iff_true_intro hg, true_and]
        have hn := hg [.policy, .first1, .last1, .init] (by decide)
        simp only [Fit, Plays, and_true] at hn
        by_cases e : W.decay x1.ty = W.decay x2.ty
        · have i2 : W.isIter (W.decay x2.ty) = false := by
            cases i : W.isIter (W.decay x2.ty) <;> simp_all
          cases c0 : W.common x1.ty <;>
          call_simp [h, planOf, valOr, at?, List.findIdx?_cons, hro, e, i2, c0]
        · cases c0 : W.common x1.ty <;>
          call_simp [h, planOf, valOr, at?, List.findIdx?_cons, hro, e, c0]
  · subst hf
    match args, h with
    | [x0, x1, x2], h =>
      simp only [Fit, Plays, and_true] at h
      have hop : W.accepts (W.decay x2.ty) (.vectors 1) = true := hc.1 _ _ rfl rfl
      rw [commonAt W _ _ _ _ rfl rfl]
      rw [noOut W _ _ rfl]
      rw [iff_true_intro hg, true_and]
      cases c0 : W.common x1.ty <;>
      call_simp [h, planOf, valOr, at?, List.findIdx?_cons, hop, c0]

/-- **C87 (zip_view).** -/
theorem zip_form (W : Types Ty) (sane : Sane W) (args : List (Arg Ty)) (h : Fit W zipForm args) (hc : CallablesOk W zipForm args) :
    call W (virSet .transform) args = .runs (planOf .transform zipForm) := by
  match args, h with
  | [x0, x1, x2, x3], h =>
    simp only [zipForm, Fit, Plays, and_true] at h
    obtain ⟨h0, ⟨ts, h1, h2⟩, h3⟩ := h
    have hop : W.accepts (W.decay x3.ty) (.tuple ((W.zipOf x1.ty).getD []).length) = true := hc.1 3 x3 rfl rfl
    have hr : W.isRange x1.ty = false := by
      cases hr : W.isRange x1.ty with
      | false => rfl
      | true =>
        rw [(sane _).1 hr] at h1
        cases h1
    rw [h1] at hop
    have h2' : ts.all W.isRange = true := List.all_eq_true.2 h2
    cases c1 : x2.lvalue <;> cases c2 : W.isConst x2.ty <;>
    call_simp [h0, h1, h2', h3, hr, c1, c2, planOf, valOr, at?, zipForm, List.findIdx?_cons]
    all_goals simpa using hop

/-- **C87 (the overloads in `namespace std`).** They do the same as those in `namespace vir`. -/
theorem std_iterator_forms (W : Types Ty) (al : Algo) (f : List Role) (hf : f ∈ iteratorForms al) (args : List (Arg Ty)) (h : Fit W f args) :
    (CallablesOk W f args → call W (stdSet al) args = .runs (planOf al f)) ∧
    (¬ CallablesOk W f args → call W (stdSet al) args = .hardError) := by
  cases al <;> simp only [iteratorForms, List.mem_cons, List.not_mem_nil, or_false] at hf
  · subst hf
    match args, h with
    | [x0, x1, x2, x3], h =>
      simp only [Fit, Plays, and_true] at h
      have hc : CallablesOk W [.policy, .first1, .last1, .op] [x0, x1, x2, x3] ↔ W.accepts (W.decay x3.ty) (.vectors 1) = true ∧ True := by
        callables
      rw [hc]
      cases hop : W.accepts (W.decay x3.ty) (.vectors 1) <;>
      call_simp [h, hop]
  · rcases hf with rfl | rfl
    · match args, h with
      | [x0, x1, x2, x3, x4], h =>
        simp only [Fit, Plays, and_true] at h
        have hc : CallablesOk W [.policy, .first1, .last1, .dFirst, .op] [x0, x1, x2, x3, x4] ↔ W.accepts (W.decay x4.ty) (.vectors 1) = true ∧ True := by
          callables
        rw [hc]
        cases hop : W.accepts (W.decay x4.ty) (.vectors 1) <;>
        call_simp [h, hop]
    · match args, h with
      | [x0, x1, x2, x3, x4, x5], h =>
        simp only [Fit, Plays, and_true] at h
        have hc : CallablesOk W [.policy, .first1, .last1, .first2, .dFirst, .op] [x0, x1, x2, x3, x4, x5] ↔ W.accepts (W.decay x5.ty) (.vectors 2) = true ∧ True := by
          callables
        rw [hc]
        cases hop : W.accepts (W.decay x5.ty) (.vectors 2) <;>
        call_simp [h, hop]
  · rcases hf with rfl | rfl | rfl
    · match args, h with
      | [x0, x1, x2, x3, x4], h =>
        simp only [Fit, Plays, and_true] at h
        have hc : CallablesOk W [.policy, .first1, .last1, .first2, .init] [x0, x1, x2, x3, x4] ↔ True ∧ True := by
          callables
        rw [hc]
        call_simp [h]
    · match args, h with
      | [x0, x1, x2, x3, x4, x5, x6], h =>
        simp only [Fit, Plays, and_true] at h
        have hc : CallablesOk W [.policy, .first1, .last1, .first2, .init, .reduceOp, .op] [x0, x1, x2, x3, x4, x5, x6] ↔ W.accepts (W.decay x6.ty) (.vectors 2) = true ∧ W.accepts (W.decay x5.ty) (.vectors 2) = true := by
          callables
        rw [hc]
        cases hop : W.accepts (W.decay x6.ty) (.vectors 2) <;>
        cases hro : W.accepts (W.decay x5.ty) (.vectors 2) <;>
        call_simp [h, hop, hro]
    · match args, h with
      | [x0, x1, x2, x3, x4, x5], h =>
        simp only [Fit, Plays, and_true] at h
        have hc : CallablesOk W [.policy, .first1, .last1, .init, .reduceOp, .op] [x0, x1, x2, x3, x4, x5] ↔ W.accepts (W.decay x5.ty) (.vectors 1) = true ∧ W.accepts (W.decay x4.ty) (.vectors 2) = true := by
          callables
        rw [hc]
        cases hop : W.accepts (W.decay x5.ty) (.vectors 1) <;>
        cases hro : W.accepts (W.decay x4.ty) (.vectors 2) <;>
        call_simp [h, hop, hro]
  · rcases hf with rfl | rfl | rfl
    · match args, h with
      | [x0, x1, x2], h =>
        simp only [Fit, Plays, and_true] at h
        have hc : CallablesOk W [.policy, .first1, .last1] [x0, x1, x2] ↔ True ∧ True := by
          callables
        rw [hc]
        call_simp [h]
    · match args, h with
      | [x0, x1, x2, x3], h =>
        simp only [Fit, Plays, and_true] at h
        have hc : CallablesOk W [.policy, .first1, .last1, .init] [x0, x1, x2, x3] ↔ True ∧ True := by
          callables
        rw [hc]
        call_simp [h]
    · match args, h with
      | [x0, x1, x2, x3, x4], h =>
        simp only [Fit, Plays, and_true] at h
        have hc : CallablesOk W [.policy, .first1, .last1, .init, .reduceOp] [x0, x1, x2, x3, x4] ↔ True ∧ W.accepts (W.decay x4.ty) (.vectors 2) = true := by
          callables
        rw [hc]
        cases hro : W.accepts (W.decay x4.ty) (.vectors 2) <;>
        call_simp [h, hro]
  · subst hf
    match args, h with
    | [x0, x1, x2, x3], h =>
      simp only [Fit, Plays, and_true] at h
      have hc : CallablesOk W [.policy, .first1, .last1, .op] [x0, x1, x2, x3] ↔ W.accepts (W.decay x3.ty) (.vectors 1) = true ∧ True := by
        callables
      rw [hc]
      cases hop : W.accepts (W.decay x3.ty) (.vectors 1) <;>
      call_simp [h, hop]


/-- **C87 (the overloads in `namespace std`, nothing else).** Calls that are not of an iterator form do not match any of them; in
particular there is no range form. -/
theorem std_noMatch (W : Types Ty) (al : Algo) (args : List (Arg Ty)) (h : ∀ g ∈ iteratorForms al, ¬ Fit W g args) :
    call W (stdSet al) args = .noMatch := by
  apply noMatch_of
  intro o ho hv
  cases al <;> simp only [stdSet, stdForEachSet, stdTransformSet, stdTransformReduceSet, stdReduceSet, stdCountIfSet, List.mem_cons,
    List.not_mem_nil, or_false] at ho
  · subst ho
    refine h [.policy, .first1, .last1, .op] (by decide) ?_
    match args, viable_length W hv with
    | [x0, x1, x2, x3], _ =>
      by_cases e : W.decay x1.ty = W.decay x2.ty <;>
        simp [viable, deduce, deduceOne, assign, List.lookup, models, e] at hv <;> simp_all [Fit, Plays]
  · rcases ho with rfl | rfl
    · refine h [.policy, .first1, .last1, .dFirst, .op] (by decide) ?_
      match args, viable_length W hv with
      | [x0, x1, x2, x3, x4], _ =>
        by_cases e : W.decay x1.ty = W.decay x2.ty <;>
          simp [viable, deduce, deduceOne, assign, List.lookup, models, e] at hv <;> simp_all [Fit, Plays]
    · refine h [.policy, .first1, .last1, .first2, .dFirst, .op] (by decide) ?_
      match args, viable_length W hv with
      | [x0, x1, x2, x3, x4, x5], _ =>
        by_cases e : W.decay x1.ty = W.decay x2.ty <;>
          simp [viable, deduce, deduceOne, assign, List.lookup, models, e] at hv <;> simp_all [Fit, Plays]
  · rcases ho with rfl | rfl | rfl
    · refine h [.policy, .first1, .last1, .first2, .init] (by decide) ?_
      match args, viable_length W hv with
      | [x0, x1, x2, x3, x4], _ =>
        by_cases e : W.decay x1.ty = W.decay x2.ty <;>
          simp [viable, deduce, deduceOne, assign, List.lookup, models, e] at hv <;> simp_all [Fit, Plays]
    · refine h [.policy, .first1, .last1, .first2, .init, .reduceOp, .op] (by decide) ?_
      match args, viable_length W hv with
      | [x0, x1, x2, x3, x4, x5, x6], _ =>
        by_cases e : W.decay x1.ty = W.decay x2.ty <;>
          simp [viable, deduce, deduceOne, assign, List.lookup, models, e] at hv <;> simp_all [Fit, Plays]
    · refine h [.policy, .first1, .last1, .init, .reduceOp, .op] (by decide) ?_
      match args, viable_length W hv with
      | [x0, x1, x2, x3, x4, x5], _ =>
        by_cases e : W.decay x1.ty = W.decay x2.ty <;>
          simp [viable, deduce, deduceOne, assign, List.lookup, models, e] at hv <;> simp_all [Fit, Plays]
  · rcases ho with rfl | rfl | rfl
    · refine h [.policy, .first1, .last1] (by decide) ?_
      match args, viable_length W hv with
      | [x0, x1, x2], _ =>
        by_cases e : W.decay x1.ty = W.decay x2.ty <;>
          simp [viable, deduce, deduceOne, assign, List.lookup, models, e] at hv <;> simp_all [Fit, Plays]
    · refine h [.policy, .first1, .last1, .init] (by decide) ?_
      match args, viable_length W hv with
      | [x0, x1, x2, x3], _ =>
        by_cases e : W.decay x1.ty = W.decay x2.ty <;>
          simp [viable, deduce, deduceOne, assign, List.lookup, models, e] at hv <;> simp_all [Fit, Plays]
    · refine h [.policy, .first1, .last1, .init, .reduceOp] (by decide) ?_
      match args, viable_length W hv with
      | [x0, x1, x2, x3, x4], _ =>
        by_cases e : W.decay x1.ty = W.decay x2.ty <;>
          simp [viable, deduce, deduceOne, assign, List.lookup, models, e] at hv <;> simp_all [Fit, Plays]
  · subst ho
    refine h [.policy, .first1, .last1, .op] (by decide) ?_
    match args, viable_length W hv with
    | [x0, x1, x2, x3], _ =>
      by_cases e : W.decay x1.ty = W.decay x2.ty <;>
        simp [viable, deduce, deduceOne, assign, List.lookup, models, e] at hv <;> simp_all [Fit, Plays]

/-- **C87 (nothing else).** A call that has none of the documented forms does not match any overload. -/
theorem vir_noMatch (W : Types Ty) (al : Algo) (args : List (Arg Ty)) (h : ∀ g ∈ iteratorForms al, ¬ Fit W g args)
    (hr : ∀ g ∈ rangeForms al, ¬ Fit W g args) (hz : al = .transform → ¬ Fit W zipForm args) :
    call W (virSet al) args = .noMatch := by
  apply noMatch_of
  intro o ho hv
  cases al <;> simp only [virSet, forEachSet, transformSet, transformReduceSet, reduceSet, countIfSet, List.mem_cons,
    List.not_mem_nil, or_false] at ho
  · rcases ho with rfl | rfl
    · refine h [.policy, .first1, .last1, .op] (by decide) ?_
      match args, viable_length W hv with
      | [x0, x1, x2, x3], _ =>
        by_cases e : W.decay x1.ty = W.decay x2.ty <;>
          simp [viable, deduce, deduceOne, assign, List.lookup, models, e] at hv <;> simp_all [Fit, Plays]
    · refine hr [.policy, .rng1, .op] (by decide) ?_
      match args, viable_length W hv with
      | [x0, x1, x2], _ =>
        simp [viable, deduce, deduceOne, assign, List.lookup, models] at hv
        simp_all [Fit, Plays]
  · rcases ho with rfl | rfl | rfl | rfl | rfl
    · refine h [.policy, .first1, .last1, .dFirst, .op] (by decide) ?_
      match args, viable_length W hv with
      | [x0, x1, x2, x3, x4], _ =>
        by_cases e : W.decay x1.ty = W.decay x2.ty <;>
          simp [viable, deduce, deduceOne, assign, List.lookup, models, e] at hv <;> simp_all [Fit, Plays]
    · refine h [.policy, .first1, .last1, .first2, .dFirst, .op] (by decide) ?_
      match args, viable_length W hv with
      | [x0, x1, x2, x3, x4, x5], _ =>
        by_cases e : W.decay x1.ty = W.decay x2.ty <;>
          simp [viable, deduce, deduceOne, assign, List.lookup, models, e] at hv <;> simp_all [Fit, Plays]
    · refine hr [.policy, .rng1, .dRng, .op] (by decide) ?_
      match args, viable_length W hv with
      | [x0, x1, x2, x3], _ =>
        by_cases e : (x2.lvalue || W.isConst x2.ty) = true
        · rw [Bool.or_eq_true] at e
          simp [viable, deduce, deduceOne, assign, List.lookup, models, e] at hv
          simp_all [Fit, Plays]
        · simp [viable, deduce, deduceOne, assign, List.lookup, e] at hv
    · refine hr [.policy, .rng1, .rng2, .dRng, .op] (by decide) ?_
      match args, viable_length W hv with
      | [x0, x1, x2, x3, x4], _ =>
        by_cases e : (x3.lvalue || W.isConst x3.ty) = true
        · rw [Bool.or_eq_true] at e
          simp [viable, deduce, deduceOne, assign, List.lookup, models, e] at hv
          simp_all [Fit, Plays]
        · simp [viable, deduce, deduceOne, assign, List.lookup, e] at hv
    · refine hz rfl ?_
      match args, viable_length W hv with
      | [x0, x1, x2, x3], _ =>
        cases e : W.zipOf x1.ty with
        | none => simp [viable, deduce, deduceOne, assign, e] at hv
        | some ts =>
          by_cases e2 : ts.all W.isRange = true
          · simp only [viable, deduce, deduceOne, assign, e, e2, if_true, Option.bind_some, List.lookup] at hv
            rw [List.all_eq_true] at e2
            simp [List.lookup, models] at hv
            simp_all [Fit, Plays, zipForm]
          · simp [viable, deduce, deduceOne, assign, e, e2] at hv
  · rcases ho with rfl | rfl | rfl | rfl | rfl | rfl
    · refine h [.policy, .first1, .last1, .first2, .init] (by decide) ?_
      match args, viable_length W hv with
      | [x0, x1, x2, x3, x4], _ =>
        by_cases e : W.decay x1.ty = W.decay x2.ty <;>
          simp [viable, deduce, deduceOne, assign, List.lookup, models, e] at hv <;> simp_all [Fit, Plays]
    · refine h [.policy, .first1, .last1, .first2, .init, .reduceOp, .op] (by decide) ?_
      match args, viable_length W hv with
      | [x0, x1, x2, x3, x4, x5, x6], _ =>
        by_cases e : W.decay x1.ty = W.decay x2.ty <;>
          simp [viable, deduce, deduceOne, assign, List.lookup, models, e] at hv <;> simp_all [Fit, Plays]
    · refine h [.policy, .first1, .last1, .init, .reduceOp, .op] (by decide) ?_
      match args, viable_length W hv with
      | [x0, x1, x2, x3, x4, x5], _ =>
        by_cases e : W.decay x1.ty = W.decay x2.ty <;>
          simp [viable, deduce, deduceOne, assign, List.lookup, models, e] at hv <;> simp_all [Fit, Plays]
    · refine hr [.policy, .rng1, .rng2, .init] (by decide) ?_
      match args, viable_length W hv with
      | [x0, x1, x2, x3], _ =>
        simp [viable, deduce, deduceOne, assign, List.lookup, models] at hv
        simp_all [Fit, Plays]
    · refine hr [.policy, .rng1, .rng2, .init, .reduceOp, .op] (by decide) ?_
      match args, viable_length W hv with
      | [x0, x1, x2, x3, x4, x5], _ =>
        simp [viable, deduce, deduceOne, assign, List.lookup, models] at hv
        simp_all [Fit, Plays]
    · refine hr [.policy, .rng1, .init, .reduceOp, .op] (by decide) ?_
      match args, viable_length W hv with
      | [x0, x1, x2, x3, x4], _ =>
        simp [viable, deduce, deduceOne, assign, List.lookup, models] at hv
        simp_all [Fit, Plays]
  · rcases ho with rfl | rfl | rfl | rfl | rfl | rfl
    · refine h [.policy, .first1, .last1] (by decide) ?_
      match args, viable_length W hv with
      | [x0, x1, x2], _ =>
        by_cases e : W.decay x1.ty = W.decay x2.ty <;>
          simp [viable, deduce, deduceOne, assign, List.lookup, models, e] at hv <;> simp_all [Fit, Plays]
    · refine h [.policy, .first1, .last1, .init] (by decide) ?_
      match args, viable_length W hv with
      | [x0, x1, x2, x3], _ =>
        by_cases e : W.decay x1.ty = W.decay x2.ty <;>
          simp [viable, deduce, deduceOne, assign, List.lookup, models, e] at hv <;> simp_all [Fit, Plays]
    · refine h [.policy, .first1, .last1, .init, .reduceOp] (by decide) ?_
      match args, viable_length W hv with
      | [x0, x1, x2, x3, x4], _ =>
        by_cases e : W.decay x1.ty = W.decay x2.ty <;>
          simp [viable, deduce, deduceOne, assign, List.lookup, models, e] at hv <;> simp_all [Fit, Plays]
    · refine hr [.policy, .rng1] (by decide) ?_
      match args, viable_length W hv with
      | [x0, x1], _ =>
        simp [viable, deduce, deduceOne, assign, List.lookup, models] at hv
        simp_all [Fit, Plays]
    · refine hr [.policy, .rng1, .init] (by decide) ?_
      match args, viable_length W hv with
      | [x0, x1, x2], _ =>
        simp [viable, deduce, deduceOne, assign, List.lookup, models] at hv
        simp_all [Fit, Plays]
    · refine hr [.policy, .rng1, .init, .reduceOp] (by decide) ?_
      match args, viable_length W hv with
      | [x0, x1, x2, x3], _ =>
        simp [viable, deduce, deduceOne, assign, List.lookup, models] at hv
        simp_all [Fit, Plays]
  · rcases ho with rfl | rfl
    · refine h [.policy, .first1, .last1, .op] (by decide) ?_
      match args, viable_length W hv with
      | [x0, x1, x2, x3], _ =>
        by_cases e : W.decay x1.ty = W.decay x2.ty <;>
          simp [viable, deduce, deduceOne, assign, List.lookup, models, e] at hv <;> simp_all [Fit, Plays]
    · refine hr [.policy, .rng1, .op] (by decide) ?_
      match args, viable_length W hv with
      | [x0, x1, x2], _ =>
        simp [viable, deduce, deduceOne, assign, List.lookup, models] at hv
        simp_all [Fit, Plays]

omit [DecidableEq Ty] in
theorem fit_iter (W : Types Ty) (al : Algo) {args : List (Arg Ty)} {g : List Role} (hg : g ∈ iteratorForms al) (h : Fit W g args) :
    ∃ a ∈ args, W.isIter (W.decay a.ty) = true := by
  have : ∃ rs, g = .policy :: .first1 :: .last1 :: rs := by
    cases al <;> simp only [iteratorForms, List.mem_cons, List.not_mem_nil, or_false] at hg
    · subst hg; exact ⟨_, rfl⟩
    · rcases hg with rfl | rfl <;> exact ⟨_, rfl⟩
    · rcases hg with rfl | rfl | rfl <;> exact ⟨_, rfl⟩
    · rcases hg with rfl | rfl | rfl <;> exact ⟨_, rfl⟩
    · subst hg; exact ⟨_, rfl⟩
  obtain ⟨rs, rfl⟩ := this
  match args, h with
  | [], h => exact absurd h (by simp [Fit])
  | [_], h => exact absurd h (by simp [Fit])
  | [_, _], h => exact absurd h (by simp [Fit])
  | x0 :: x1 :: x2 :: _, h =>
    simp only [Fit, Plays] at h
    exact ⟨x1, by simp, h.2.1⟩

/-- **C87 (ranges that do not decay to iterators).** With `std::vector`, `std::array`, `std::span` and other ranges of class type every
documented range form does what is documented (if begin and end have the same type and the output range is an lvalue). -/
theorem range_forms_partial (W : Types Ty) (sane : Sane W) (al : Algo) (f : List Role) (hf : f ∈ rangeForms al) (args : List (Arg Ty))
    (h : Fit W f args) (hc : CallablesOk W f args) (hcls : ∀ a ∈ args, W.isIter (W.decay a.ty) = false)
    (hcom : ∀ a ∈ args, W.isRange a.ty = true → W.common a.ty = true) (hlv : ∀ a ∈ args, a.lvalue = true) :
    call W (virSet al) args = .runs (planOf al f) := by
  refine (range_forms W sane al f hf args h hc).2 ⟨fun g hg hfit => ?_, fun i a hi ha => ?_, fun i a _ ha => .inl ?_⟩
  · obtain ⟨a, ha, hi⟩ := fit_iter W al hg hfit
    rw [hcls a ha] at hi
    cases hi
  · refine hcom a (List.mem_of_getElem? ha) ?_
    cases al <;> simp only [rangeForms, List.mem_cons, List.not_mem_nil, or_false] at hf
    · subst hf
      cases hi
      match args, h with
      | [x0, x1, x2], h => cases ha; exact h.2.1
    · rcases hf with rfl | rfl <;> cases hi
      · match args, h with
        | [x0, x1, x2, x3], h => cases ha; exact h.2.1
      · match args, h with
        | [x0, x1, x2, x3, x4], h => cases ha; exact h.2.1
    · rcases hf with rfl | rfl | rfl <;> cases hi
      · match args, h with
        | [x0, x1, x2, x3], h => cases ha; exact h.2.1
      · match args, h with
        | [x0, x1, x2, x3, x4, x5], h => cases ha; exact h.2.1
      · match args, h with
        | [x0, x1, x2, x3, x4], h => cases ha; exact h.2.1
    · rcases hf with rfl | rfl | rfl <;> cases hi
      · match args, h with
        | [x0, x1], h => cases ha; exact h.2.1
      · match args, h with
        | [x0, x1, x2], h => cases ha; exact h.2.1
      · match args, h with
        | [x0, x1, x2, x3], h => cases ha; exact h.2.1
    · subst hf
      cases hi
      match args, h with
      | [x0, x1, x2], h => cases ha; exact h.2.1
  · exact hlv a (List.mem_of_getElem? ha)

/-- **C87 (false for C arrays, transform).** The binary range form with three C arrays, the two inputs of the same element type, selects
the *unary iterator* overload: the start of the first array is `first`, the start of the second array is `last`. A binary callable does
not compile then; one that also accepts a single argument is applied to the memory between the two arrays. -/
theorem transform_c_arrays (W : Types Ty) (p a b d o : Arg Ty) (h : Fit W [.policy, .rng1, .rng2, .dRng, .op] [p, a, b, d, o])
    (hab : W.decay a.ty = W.decay b.ty) (ha : W.isIter (W.decay a.ty) = true) (hd : W.isIter (W.decay d.ty) = true) :
    call W (virSet .transform) [p, a, b, d, o] = if W.accepts (W.decay o.ty) (.vectors 1) then
      .runs ⟨.transform, .iters (.arg 1) (.arg 2) [], some (.arg 3), none, none, .arg 4⟩ else .hardError := by
  have hf : Fit W [.policy, .first1, .last1, .dFirst, .op] [p, a, b, d, o] :=
    ⟨h.1, ha, show W.isIter (W.decay b.ty) = true from hab ▸ ha, hab, hd, trivial, trivial⟩
  have hk : CallablesOk W [.policy, .first1, .last1, .dFirst, .op] [p, a, b, d, o] ↔
      W.accepts (W.decay o.ty) (.vectors 1) = true ∧ True := by
    callables
  have := iterator_forms W .transform _ (by decide) _ hf
  cases ho : W.accepts (W.decay o.ty) (.vectors 1) with
  | true => exact this.1 (hk.2 ⟨ho, trivial⟩)
  | false => exact this.2 fun hc => by rw [(hk.1 hc).1] at ho; cases ho

/-- **C87 (false for C arrays, transform_reduce).** Likewise for two input arrays and explicit callables. -/
theorem transformReduce_c_arrays (W : Types Ty) (p a b i r o : Arg Ty)
    (h : Fit W [.policy, .rng1, .rng2, .init, .reduceOp, .op] [p, a, b, i, r, o])
    (hab : W.decay a.ty = W.decay b.ty) (ha : W.isIter (W.decay a.ty) = true) :
    call W (virSet .transformReduce) [p, a, b, i, r, o] =
      if W.accepts (W.decay o.ty) (.vectors 1) && W.accepts (W.decay r.ty) (.vectors 2) then
        .runs ⟨.transformReduce, .iters (.arg 1) (.arg 2) [], none, some (.arg 3), some (.arg 4), .arg 5⟩ else .hardError := by
  have hf : Fit W [.policy, .first1, .last1, .init, .reduceOp, .op] [p, a, b, i, r, o] :=
    ⟨h.1, ha, show W.isIter (W.decay b.ty) = true from hab ▸ ha, hab, trivial, trivial, trivial, trivial⟩
  have hk : CallablesOk W [.policy, .first1, .last1, .init, .reduceOp, .op] [p, a, b, i, r, o] ↔
      W.accepts (W.decay o.ty) (.vectors 1) = true ∧ W.accepts (W.decay r.ty) (.vectors 2) = true := by
    callables
  have := iterator_forms W .transformReduce _ (by decide) _ hf
  cases ho : W.accepts (W.decay o.ty) (.vectors 1) with
  | false => exact this.2 fun hc => by rw [(hk.1 hc).1] at ho; cases ho
  | true =>
    cases hr : W.accepts (W.decay r.ty) (.vectors 2) with
    | true => exact this.1 (hk.2 ⟨ho, hr⟩)
    | false => exact this.2 fun hc => by rw [(hk.1 hc).2] at hr; cases hr

/-! ### Concrete types -/

/-- Some C++ types: the policy, `T*`, `T[n]`, `std::vector<T>`, `std::span<T>`, a contiguous range whose end is a sentinel of its own type,
a `zip_view` of vectors, numbers, and callables with one, two or any number of `simd` parameters. -/
inductive CTy
  | policy
  | ptr (e : Nat)
  | array (e n : Nat)
  | vector (e : Nat)
  | span (e : Nat)
  | sentinelRange (e : Nat)
  | zip (e : Nat) (es : List Nat)
  | num
  | unary
  | binary
  | variadic
deriving DecidableEq, Repr

def cpp : Types CTy where
  decay
    | .array e _ => .ptr e
    | t => t
  isPolicy t := t == .policy
  isIter
    | .ptr _ => true
    | _ => false
  isRange
    | .array _ _ | .vector _ | .span _ | .sentinelRange _ => true
    | _ => false
  isConst _ := false
  common
    | .sentinelRange _ => false
    | _ => true
  zipOf
    | .zip e es => some ((e :: es).map .vector)
    | _ => none
  accepts
    | .unary, .vectors 1 | .binary, .vectors 2 | .unary, .tuple _ => true
    | .variadic, _ => true
    | _, _ => false

theorem cpp_sane : Sane cpp := by
  intro t
  cases t <;> simp [cpp]

/-- An lvalue and an rvalue. -/
def lv (t : CTy) : Arg CTy := ⟨t, true⟩
@[inherit_doc lv] def rv (t : CTy) : Arg CTy := ⟨t, false⟩

-- pointers and class-type ranges: as documented
example : call cpp (virSet .transform) [lv .policy, lv (.ptr 0), rv (.ptr 0), lv (.ptr 1), rv .unary] =
    .runs (planOf .transform [.policy, .first1, .last1, .dFirst, .op]) := by decide
example : call cpp (virSet .transform) [lv .policy, lv (.vector 0), lv (.vector 0), lv (.vector 0), rv .binary] =
    .runs (planOf .transform [.policy, .rng1, .rng2, .dRng, .op]) := by decide
example : call cpp (virSet .transform) [lv .policy, rv (.zip 0 [1, 0]), rv (.span 0), rv .unary] =
    .runs (planOf .transform zipForm) := by decide
example : Fit cpp [.policy, .rng1, .rng2, .init, .reduceOp, .op]
    [lv .policy, lv (.array 0 8), lv (.array 0 8), rv .num, rv .binary, rv .binary] := by simp [Fit, Plays, cpp, lv]
-- a C array as the only input is fine
example : call cpp (virSet .reduce) [lv .policy, lv (.array 0 8), rv .num] = .runs (planOf .reduce [.policy, .rng1, .init]) := by decide
-- three C arrays are not
example : call cpp (virSet .transform) [lv .policy, lv (.array 0 8), lv (.array 0 8), lv (.array 0 8), rv .binary] = .hardError := by decide
example : call cpp (virSet .transform) [lv .policy, lv (.array 0 8), lv (.array 0 8), lv (.array 0 8), rv .variadic] =
    .runs (planOf .transform [.policy, .first1, .last1, .dFirst, .op]) := by decide
example : call cpp (virSet .transformReduce) [lv .policy, lv (.array 0 8), lv (.array 0 8), rv .num, rv .binary, rv .binary] =
    .hardError := by decide
-- a temporary as output range, a range with a sentinel
example : call cpp (virSet .transform) [lv .policy, lv (.vector 0), rv (.span 0), rv .unary] = .noMatch := by decide
example : call cpp (virSet .forEach) [lv .policy, lv (.sentinelRange 0), rv .unary] = .hardError := by decide
-- no range forms in namespace std
example : call cpp (stdSet .forEach) [lv .policy, lv (.vector 0), rv .unary] = .noMatch := by decide

/-! ## The theorems applied to concrete data -/

example := iterator_forms cpp .transform [.policy, .first1, .last1, .dFirst, .op] (by simp [iteratorForms])
  [lv .policy, lv (.ptr 0), rv (.ptr 0), lv (.ptr 1), rv .unary] (by simp [Fit, Plays, cpp, lv, rv])
example := std_iterator_forms cpp .transform [.policy, .first1, .last1, .dFirst, .op] (by simp [iteratorForms])
  [lv .policy, lv (.ptr 0), rv (.ptr 0), lv (.ptr 1), rv .unary] (by simp [Fit, Plays, cpp, lv, rv])

private theorem vectorsOk : CallablesOk cpp [.policy, .rng1, .rng2, .dRng, .op]
    [lv .policy, lv (.vector 0), lv (.vector 0), lv (.vector 0), lv .binary] := by
  refine ⟨fun i a hi ha => ?_, fun i a hi => ?_⟩
  · rw [show at? [.policy, .rng1, .rng2, .dRng, .op] .op = some 4 from rfl] at hi
    cases hi; cases ha; decide
  · cases hi

private theorem zipOk : CallablesOk cpp zipForm [lv .policy, rv (.zip 0 [1, 0]), rv (.span 0), rv .unary] := by
  refine ⟨fun i a hi ha => ?_, fun i a hi => ?_⟩
  · rw [show at? zipForm .op = some 3 from rfl] at hi
    cases hi; cases ha; decide
  · cases hi

example := range_forms cpp cpp_sane .transform [.policy, .rng1, .rng2, .dRng, .op] (by simp [rangeForms])
  [lv .policy, lv (.vector 0), lv (.vector 0), lv (.vector 0), lv .binary] (by simp [Fit, Plays, cpp, lv]) vectorsOk
example := range_forms_partial cpp cpp_sane .transform [.policy, .rng1, .rng2, .dRng, .op] (by simp [rangeForms])
  [lv .policy, lv (.vector 0), lv (.vector 0), lv (.vector 0), lv .binary] (by simp [Fit, Plays, cpp, lv]) vectorsOk (by simp [cpp, lv])
  (by simp [cpp, lv]) (by simp [lv])
example := zip_form cpp cpp_sane [lv .policy, rv (.zip 0 [1, 0]), rv (.span 0), rv .unary] (by simp [Fit, Plays, cpp, lv, rv, zipForm]) zipOk
example := std_noMatch cpp .forEach [lv .policy, lv (.vector 0), rv .unary] (by simp [iteratorForms, Fit])
example := vir_noMatch cpp .transform [lv .policy, lv (.vector 0), rv (.span 0)] (by simp [iteratorForms, Fit]) (by simp [rangeForms, Fit])
  (by simp [zipForm, Fit])
example := transform_c_arrays cpp (lv .policy) (lv (.array 0 8)) (lv (.array 0 8)) (lv (.array 1 8)) (rv .binary) (by simp [Fit, Plays, cpp, lv])
  rfl rfl rfl
example := transformReduce_c_arrays cpp (lv .policy) (lv (.array 0 8)) (lv (.array 0 8)) (rv .num) (rv .binary) (rv .binary)
  (by simp [Fit, Plays, cpp, lv]) rfl rfl

end Vir.Resolve
