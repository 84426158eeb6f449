import Verif.Lemmas.SimdExpr

/-!
# C73: operator expressions on integer simds

The specification is in `Verif/Spec/SimdExpr.lean`.
-/

namespace Vir.SimdExpr
open Spec Simd IntTy

variable {t : IntTy} {w : Nat} {args : List (List Int)} {e : Expr}

/-- The arguments of a lane are values of the type. -/
theorem lane_args (ha : SimdArgs t w args) (i : Nat) : LanesOf t (laneArgs args i) := by
  intro x hx
  obtain ⟨a, h1, h2⟩ := List.mem_filterMap.1 hx
  exact (ha a h1).2 x (List.mem_of_getElem? h2)

/-- **C73.** If the expression has a value on every lane, evaluating it on simds is defined and lane `i` of the result is the value on
lane `i` of the arguments — for every width. -/
theorem simdExpr_spec (hv : ValidTy t) (ha : SimdArgs t w args) (hu : e.Uses args.length)
    (hd : ∀ i < w, ∃ v, HasValue t (laneArgs args i) e v) :
    ∃ r, e.simd t w args = .ok r ∧ r.length = w ∧ LanesOf t r ∧
      ∀ (i : Nat) (v : Int), r[i]? = some v → HasValue t (laneArgs args i) e v := by
  have hL := simd_lanes t w args (fun a h => (ha a h).1) e hu
  rcases all_or (F := fun i => e.lane t (laneArgs args i)) (fun i => lane_not_trap _ _ _) w with ⟨f, hf⟩ | ⟨i, hi, u, hu'⟩
  · have key : ∀ i, i < w → HasValue t (laneArgs args i) e (f i) ∧ t.Has (f i) := fun i hi => by
      obtain ⟨v, h⟩ := hd i hi
      obtain ⟨h1, h2⟩ := (lane_spec t hv _ (lane_args ha i) e).1 v h
      have := hf i hi
      simp only [h1, Outcome.ok.injEq] at this
      rw [← this]; exact ⟨h, h2⟩
    refine ⟨_, hL.1 f hf, by simp, fun x hx => ?_, fun i v hv => ?_⟩
    · obtain ⟨i, hi, rfl⟩ := List.mem_map.1 hx
      exact (key i (List.mem_range.1 hi)).2
    · obtain ⟨hi, rfl⟩ := List.getElem?_eq_some_iff.1 hv
      simp only [List.length_map, List.length_range] at hi
      simpa using (key i hi).1
  · obtain ⟨v, h⟩ := hd i hi
    simp [((lane_spec t hv _ (lane_args ha i) e).1 v h).1] at hu'

/-- **C73.** If the expression has no value on some lane, evaluating it on simds is undefined. -/
theorem simdExpr_ub (hv : ValidTy t) (ha : SimdArgs t w args) (hu : e.Uses args.length) {i : Nat} (hi : i < w)
    (hd : ∀ v, ¬ HasValue t (laneArgs args i) e v) : ∃ u, e.simd t w args = .ub u :=
  (simd_lanes t w args (fun a h => (ha a h).1) e hu).2 ⟨i, hi, (lane_spec t hv _ (lane_args ha i) e).2 hd⟩

/-- **C73.** The value of an expression is unique. -/
theorem hasValue_unique {xs : List Int} (hv : ValidTy t) (hx : LanesOf t xs) {v v' : Int} (h : HasValue t xs e v) (h' : HasValue t xs e v') :
    v = v' := by
  have h1 := ((lane_spec t hv xs hx e).1 v h).1
  have h2 := ((lane_spec t hv xs hx e).1 v' h').1
  rw [h1] at h2
  exact Outcome.ok.inj h2

/-- **C73 (same as on numbers).** For types that are not promoted, the value on a lane is the value of the same C++ expression on
numbers. -/
theorem simdExpr_plain {xs : List Int} (hw : 32 ≤ t.bits) {v : Int} (h : HasValue t xs e v) : PlainValue t t.promote xs e v := by
  have hp : t.promote = t := by unfold IntTy.promote; rw [if_neg (by omega)]
  rw [hp]
  induction h with
  | arg h => exact .arg h
  | lit h => exact .lit h
  | bin _ _ h3 h4 iha ihb => exact .bin iha ihb h3 h4
  | un _ h3 h4 iha => exact .un iha h3 h4
  | sel_true _ _ _ _ hc iha ihb ihx ihy => exact .sel_true iha ihb hc ihx
  | sel_false _ _ _ _ hc iha ihb ihx ihy => exact .sel_false iha ihb hc ihy

/-- **C73 (same as on numbers).** Without selection, the expression on numbers is defined only if the lane is. -/
theorem plain_simdExpr {xs : List Int} (hw : 32 ≤ t.bits) (hs : NoSelect e) {v : Int} (h : PlainValue t t.promote xs e v) :
    HasValue t xs e v := by
  have hp : t.promote = t := by unfold IntTy.promote; rw [if_neg (by omega)]
  rw [hp] at h
  induction h with
  | arg h => exact .arg h
  | lit h => exact .lit h
  | bin _ _ h3 h4 iha ihb => exact .bin (iha hs.1) (ihb hs.2) h3 h4
  | un _ h3 h4 iha => exact .un (iha hs) h3 h4
  | sel_true => exact absurd hs (by simp [NoSelect])
  | sel_false => exact absurd hs (by simp [NoSelect])

/-- **C73 (narrow types).** For types narrower than `int` and expressions with `+`, `-`, `*`, `~`, `&`, `|`, `^` only, the lane has the low
bits of the value of the C++ expression on numbers. -/
theorem simdExpr_narrow {xs : List Int} (hv : ValidTy t) (hx : LanesOf t xs) (hl : LowBits e) {v v' : Int} (h : HasValue t xs e v)
    (h' : PlainValue t t.promote xs e v') : IsWrapped t v' v :=
  ⟨((lane_spec t hv xs hx e).1 v h).2, emod_dvd (lowBits_congr (le_promote t) hl h h' hv.1)⟩

/-! ### the conditions are needed -/

/-- `(x + y) / 2` -/
def avg : Expr := .bin .div (.bin .add (.arg 0) (.arg 1)) (.lit 2)

/-- **C73 (narrow types)** is false for other operators: the average of the `unsigned char`s 200 and 100 is 150 on numbers and 22 on
simds. -/
theorem avg_differs : HasValue u8 [200, 100] avg 22 ∧ PlainValue u8 u8.promote [200, 100] avg 150 := by
  constructor
  · exact .bin (x := 44) (y := 2) (.bin (x := 200) (y := 100) (.arg rfl) (.arg rfl) (by simp [IsUndefined, u8]) ⟨by decide, by decide⟩)
      (.lit ⟨by decide, by decide⟩) (by simp [IsUndefined, u8]) ⟨by decide, by decide⟩
  · exact .bin (x := 300) (y := 2) (.bin (x := 200) (y := 100) (.arg rfl) (.arg rfl) (by simp only [IsUndefined]; decide) ⟨by decide, by decide⟩)
      (.lit ⟨by decide, by decide⟩) (by simp only [IsUndefined]; decide) ⟨by decide, by decide⟩

/-- `y != 0 ? x / y : 0` -/
def guarded : Expr := .sel .ne (.arg 1) (.lit 0) (.bin .div (.arg 0) (.arg 1)) (.lit 0)

/-- **C73 (selection)**: on simds both operands are evaluated, so that a guarded division is undefined although it is defined on
numbers. -/
theorem guarded_differs : PlainValue i32 i32.promote [7, 0] guarded 0 ∧ (∀ v, ¬ HasValue i32 [7, 0] guarded v) ∧
    guarded.simd i32 2 [[8, 7], [2, 0]] = .ub .div0 := by
  refine ⟨?_, ?_, by decide +kernel⟩
  · exact .sel_false (c := 0) (d := 0) (.arg rfl) (.lit ⟨by decide, by decide⟩) (by simp [cmpHolds]) (.lit ⟨by decide, by decide⟩)
  · have key : ∀ v, ¬ HasValue i32 [7, 0] (.bin .div (.arg 0) (.arg 1)) v := by
      intro v h
      cases h with
      | bin h1 h2 h3 _ =>
        cases h2 with
        | arg h2 =>
          simp only [List.getElem?_cons_succ, List.getElem?_cons_zero, Option.some.injEq] at h2
          exact h3 (Or.inl h2.symm)
    intro v h
    cases h with
    | sel_true _ _ h3 _ _ => exact key _ h3
    | sel_false _ _ h3 _ _ => exact key _ h3

/-- `(x - y) * z` -/
def diffMul : Expr := .bin .mul (.bin .sub (.arg 0) (.arg 1)) (.arg 2)

/-- **C73 (narrow types)**: an expression that is defined on numbers may be undefined on simds: with `unsigned short`, `(0 - 1) * 65535` is
-65535 on numbers and overflows `int` on simds, where the difference is 65535. -/
theorem diffMul_differs : PlainValue u16 u16.promote [0, 1, 65535] diffMul (-65535) ∧
    diffMul.simd u16 1 [[0], [1], [65535]] = .ub .overflow := by
  refine ⟨?_, by decide +kernel⟩
  exact .bin (x := -1) (y := 65535) (.bin (x := 0) (y := 1) (.arg rfl) (.arg rfl) (by simp only [IsUndefined]; decide) ⟨by decide, by decide⟩)
    (.arg rfl) (by simp only [IsUndefined]; decide) ⟨by decide, by decide⟩

/-- `x * 3 + (y >> 1)` on four lanes of `int`: all values exist. -/
example : SimdArgs i32 4 [[1, 2, 3, -4], [10, 20, -30, 5]] ∧
    (Expr.bin .add (.bin .mul (.arg 0) (.lit 3)) (.bin .shr (.arg 1) (.lit 1))).simd i32 4 [[1, 2, 3, -4], [10, 20, -30, 5]] =
      .ok [8, 16, -6, -10] := by
  refine ⟨?_, by decide +kernel⟩
  intro a ha
  simp only [List.mem_cons, List.not_mem_nil, or_false] at ha
  rcases ha with rfl | rfl <;> exact ⟨rfl, by unfold LanesOf; decide⟩

example : HasValue i32 [-4, 5] (.bin .add (.bin .mul (.arg 0) (.lit 3)) (.bin .shr (.arg 1) (.lit 1))) (-10) :=
  .bin (x := -12) (y := 2) (.bin (x := -4) (y := 3) (.arg rfl) (.lit ⟨by decide, by decide⟩) (by simp only [IsUndefined]; decide)
    ⟨by decide, by decide⟩) (.bin (x := 5) (y := 1) (.arg rfl) (.lit ⟨by decide, by decide⟩) (by simp only [IsUndefined]; decide) (by simp only [IsResult]; decide))
    (by simp only [IsUndefined]; decide) ⟨by decide, by decide⟩

/-- Narrow types: `x * x - y` on `unsigned char`. -/
example : LowBits (.bin .sub (.bin .mul (.arg 0) (.arg 0)) (.arg 1)) ∧
    HasValue u8 [200, 1] (.bin .sub (.bin .mul (.arg 0) (.arg 0)) (.arg 1)) 63 ∧
    PlainValue u8 u8.promote [200, 1] (.bin .sub (.bin .mul (.arg 0) (.arg 0)) (.arg 1)) 39999 := by
  refine ⟨by simp [LowBits], ?_, ?_⟩
  · exact .bin (x := 64) (y := 1) (.bin (x := 200) (y := 200) (.arg rfl) (.arg rfl) (by simp only [IsUndefined]; decide) ⟨by decide, by decide⟩)
      (.arg rfl) (by simp only [IsUndefined]; decide) ⟨by decide, by decide⟩
  · exact .bin (x := 40000) (y := 1) (.bin (x := 200) (y := 200) (.arg rfl) (.arg rfl) (by simp only [IsUndefined]; decide) ⟨by decide, by decide⟩)
      (.arg rfl) (by simp only [IsUndefined]; decide) ⟨by decide, by decide⟩

/-! ## The theorems applied to concrete data -/

private def axpy : Expr := .bin .add (.bin .mul (.arg 0) (.lit 3)) (.bin .shr (.arg 1) (.lit 1))

private theorem axpy_value : HasValue i32 [-4, 5] axpy (-10) :=
  .bin (x := -12) (y := 2) (.bin (x := -4) (y := 3) (.arg rfl) (.lit ⟨by decide, by decide⟩) (by simp only [IsUndefined]; decide)
    ⟨by decide, by decide⟩) (.bin (x := 5) (y := 1) (.arg rfl) (.lit ⟨by decide, by decide⟩) (by simp only [IsUndefined]; decide) (by simp only [IsResult]; decide))
    (by simp only [IsUndefined]; decide) ⟨by decide, by decide⟩

private theorem validI32 : ValidTy i32 := by unfold ValidTy; decide

private theorem oneLane (a b : Int) (ha : i32.Has a) (hb : i32.Has b) : SimdArgs i32 1 [[a], [b]] := by
  intro x hx
  simp only [List.mem_cons, List.not_mem_nil, or_false] at hx
  rcases hx with rfl | rfl <;> refine ⟨rfl, fun y hy => ?_⟩ <;> simp only [List.mem_cons, List.not_mem_nil, or_false] at hy <;> subst hy <;> assumption

example := simdExpr_spec validI32 (oneLane (-4) 5 (by decide) (by decide)) (e := axpy) (by simp [axpy, Expr.Uses]) (by
  intro i hi
  obtain rfl : i = 0 := by omega
  exact ⟨-10, axpy_value⟩)
example := simdExpr_ub validI32 (oneLane 7 0 (by decide) (by decide)) (e := guarded) (by simp [guarded, Expr.Uses]) (i := 0) (by decide)
  guarded_differs.2.1
example := hasValue_unique validI32 (by unfold LanesOf; decide) axpy_value axpy_value
example := plain_simdExpr (t := i32) (by decide) (by simp [axpy, NoSelect]) (simdExpr_plain (by decide) axpy_value)
example := simdExpr_narrow (t := u8) (by unfold ValidTy; decide) (xs := [200]) (by unfold LanesOf; decide) (e := .bin .add (.arg 0) (.arg 0)) (by simp [LowBits])
  (.bin (x := 200) (y := 200) (.arg rfl) (.arg rfl) (by simp only [IsUndefined]; decide) (v := 144) ⟨by decide, by decide⟩)
  (.bin (x := 200) (y := 200) (.arg rfl) (.arg rfl) (by simp only [IsUndefined]; decide) (v := 400) ⟨by decide, by decide⟩)

end Vir.SimdExpr
