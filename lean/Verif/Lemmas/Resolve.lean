import Verif.Spec.Resolve

/-!
# Evaluating overload resolution on explicit argument lists
-/

namespace Vir.Resolve
open Spec

variable {Ty : Type} [DecidableEq Ty]

/-- Unfolds a call on an explicit argument list. -/
macro "call_simp" "[" ts:Lean.Parser.Tactic.simpLemma,* "]" : tactic =>
  `(tactic| simp (config := { decide := true }) [call, virSet, stdSet, forEachSet, transformSet, transformReduceSet, reduceSet, countIfSet,
    stdForEachSet, stdTransformSet, stdTransformReduceSet, stdReduceSet, stdCountIfSet, resolve, viable,
    deduce, deduceOne, assign, List.lookup, models, compiles, sourceOk, callable, argTy, shapeOf, moreSpecialised, atLeast, deduceUnique,
    unique, $ts,*])

/-- Evaluates `CallablesOk` on explicit lists. -/
macro "callables" : tactic =>
  `(tactic| (
    constructor
    · intro h
      refine ⟨?_, ?_⟩
      · first | trivial | exact h.1 _ _ rfl rfl
      · first | trivial | exact h.2 _ _ rfl rfl
    · rintro ⟨h1, h2⟩
      refine ⟨fun i a hi ha => ?_, fun i a hi ha => ?_⟩
      · first
        | (cases hi; done)
        | (cases hi; cases ha; exact h1)
      · first
        | (cases hi; done)
        | (cases hi; cases ha; exact h2)))

theorem planOf_ne (al : Algo) : ∀ f ∈ rangeForms al, ∀ g ∈ iteratorForms al, planOf al g ≠ planOf al f := by
  cases al <;> decide

omit [DecidableEq Ty] in
theorem commonAt (W : Types Ty) (f : List Role) (args : List (Arg Ty)) (j : Nat) (b : Arg Ty) (hj : at? f .rng1 = some j)
    (hb : args[j]? = some b) :
    (∀ i a, at? f .rng1 = some i → args[i]? = some a → W.common a.ty = true) ↔ W.common b.ty = true := by
  constructor
  · exact fun h => h j b hj hb
  · intro h i a hi ha
    rw [hj] at hi
    cases hi
    rw [hb] at ha
    cases ha
    exact h

omit [DecidableEq Ty] in
theorem outAt (W : Types Ty) (f : List Role) (args : List (Arg Ty)) (j : Nat) (b : Arg Ty) (hj : at? f .dRng = some j)
    (hb : args[j]? = some b) :
    (∀ i a, at? f .dRng = some i → args[i]? = some a → a.lvalue = true ∨ W.isConst a.ty = true) ↔
      b.lvalue = true ∨ W.isConst b.ty = true := by
  constructor
  · exact fun h => h j b hj hb
  · intro h i a hi ha
    rw [hj] at hi
    cases hi
    rw [hb] at ha
    cases ha
    exact h

omit [DecidableEq Ty] in
theorem noOut (W : Types Ty) (f : List Role) (args : List (Arg Ty)) (hj : at? f .dRng = none) :
    (∀ i a, at? f .dRng = some i → args[i]? = some a → a.lvalue = true ∨ W.isConst a.ty = true) ↔ True := by
  simp [hj]

theorem deduce_length (W : Types Ty) {args : List (Arg Ty)} :
    ∀ {ps : List Param} {s s' : List (Nat × Ty)}, deduce W s ps args = some s' → args.length = ps.length := by
  induction args with
  | nil => intro ps s s' h; cases ps <;> simp_all [deduce]
  | cons a as ih =>
    intro ps s s' h
    cases ps with
    | nil => simp [deduce] at h
    | cons p ps =>
      simp only [deduce] at h
      cases hd : deduceOne W s a p with
      | none => rw [hd] at h; cases h
      | some t =>
        rw [hd] at h
        simp only [List.length_cons]
        rw [ih h]

theorem viable_length (W : Types Ty) {args : List (Arg Ty)} {o : Overload} (h : viable W args o = true) :
    args.length = o.params.length := by
  unfold viable at h
  cases hd : deduce W [] o.params args with
  | none => rw [hd] at h; cases h
  | some s => exact deduce_length W hd

theorem noMatch_of (W : Types Ty) {cands : List Overload} {args : List (Arg Ty)} (h : ∀ o ∈ cands, viable W args o ≠ true) :
    call W cands args = .noMatch := by
  have : cands.filter (viable W args) = [] := by
    rw [List.filter_eq_nil_iff]
    exact h
  simp [call, resolve, this]

end Vir.Resolve
