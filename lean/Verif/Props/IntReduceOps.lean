import Verif.Props.IntReduce
import Verif.Props.IntHReduce

/-!
# C101: integer reductions with the standard function objects

`vir::reduce` and `vir::transform_reduce` with `std::plus<>`, `std::multiplies<>`, `std::bit_and<>`, `std::bit_or<>` or `std::bit_xor<>`, for
elements and `init` of the same integer type. As in C70 the accumulators are values that may be undefined; since C14 says that every
intermediate value goes into the result, the program has undefined behaviour exactly if the returned value is undefined.
-/

namespace Vir
open Spec ForEach TransformReduce Simd

/-- The operation on accumulators: the operator in the type `t`, undefined as soon as an operand is. `/repo/vir/simd_execution.h` 862-1056. -/
def redOp (t : IntTy) (o : RedOp) : Outcome Int → Outcome Int → Outcome Int := strict2 (o.binOp.eval t)

variable {R : REnv Int (Outcome Int) (Outcome Int)} {mem : List Int} {t : IntTy} {o : RedOp}

/-- The operations of `R` are applications of `o` in the type `t`, and the preconditions of C14 are met. Constant evaluation is included. -/
structure Spec.RedOk (R : REnv Int (Outcome Int) (Outcome Int)) (mem : List Int) (t : IntTy) (o : RedOp) : Prop where
  rB : R.rB = redOp t o
  rT : R.rT = redOp t o
  cvt : R.cvt = id
  ins : InputsOk R mem
  assume : R.e.pol.assumeMatchingSize = true → R.e.size ∣ R.n
  wf : R.e.WF
  flat : R.e.strictPtr = false
  fits : R.e.Fits R.n
  reach : ReachesAlignment R.e R.n
  ends : ¬ EndsAtFirstAligned R.e R.n
  hT : HReduce (redOp t o) R.hredT
  hB : HReduce (redOp t o) R.hredB

private theorem gsum_of (ok : RedOk R mem t o) {g : List Int → Outcome Int} (hg : LaneWise R.trans g) {ys : List Int}
    (hy : transformed R g mem = ys.map .ok) (init : Int) :
    ∃ v, transformReduce R mem (.ok init) = .ok v ∧ GSum (opE t o) ((init :: ys).map .ok) v := by
  by_cases hce : R.e.constEval = true
  · have := transformReduce_const_fold ok.ins hce ok.assume g hg (.ok init)
    rw [hy, ok.cvt, List.map_id, ok.rT] at this
    exact ⟨_, this, foldl_gsum (opE t o) (.ok init) (ys.map .ok)⟩
  · have := transformReduce_is_gsum (by rw [ok.rB, ok.rT]) ok.cvt ok.ins ok.wf (by simpa using hce) ok.flat ok.fits ok.reach ok.ends ok.assume
      (ok.rT ▸ ok.hT) (ok.rT ▸ ok.hB) g hg (.ok init)
    rw [hy, ok.rT] at this
    exact this

/-- **C101.** Every value the call returns is the reduction of `init` and the transformed elements: their sum or product modulo `2 ^ bits`, their
bitwise and, or, exclusive or. The only other outcome is an overflow. -/
theorem redInts_value (ok : RedOk R mem t o) (hv : ValidTy t) {g : List Int → Outcome Int} (hg : LaneWise R.trans g) {ys : List Int}
    (hy : transformed R g mem = ys.map .ok) (hh : LanesOf t ys) {init : Int} (hi : t.Has init) :
    (∃ r, sumInts R mem init = .ok r ∧ IsReduction t o (init :: ys) r) ∨ sumInts R mem init = .ub .overflow := by
  obtain ⟨v, h1, h2⟩ := gsum_of ok hg hy init
  have hh' : LanesOf t (init :: ys) := by simpa [LanesOf] using ⟨hi, hh⟩
  have e : sumInts R mem init = v := by rw [sumInts, h1]; rfl
  rw [e]
  rcases (gsum_strict h2 map_ok_mem).1 with ⟨r, h⟩ | h
  · exact .inl ⟨r, h, gsum_reduction hv h2 rfl hh' r h⟩
  · exact .inr h

/-- **C101.** There is no overflow, whatever the elements are, for bitwise operations, for sums in unsigned and narrow types, and for products
except those of `unsigned short` and of signed types of at least 32 bits. -/
theorem redInts_defined (ok : RedOk R mem t o) (hv : ValidTy t) (hn : NeverOverflows t o) {g : List Int → Outcome Int}
    (hg : LaneWise R.trans g) {ys : List Int} (hy : transformed R g mem = ys.map .ok) (hh : LanesOf t ys) {init : Int} (hi : t.Has init) :
    ∃ r, sumInts R mem init = .ok r ∧ IsReduction t o (init :: ys) r := by
  obtain ⟨v, h1, h2⟩ := gsum_of ok hg hy init
  have hh' : LanesOf t (init :: ys) := by simpa [LanesOf] using ⟨hi, hh⟩
  have e : sumInts R mem init = v := by rw [sumInts, h1]; rfl
  rw [e]
  obtain ⟨r, h⟩ := gsum_defined hv h2 rfl hh' fun _ _ a b _ ha hb => neverOverflows_defined hv hn (isReduction_has ha) (isReduction_has hb)
  exact ⟨r, h, gsum_reduction hv h2 rfl hh' r h⟩

/-- **C101.** The product of `init` and elements of a signed type of at least 32 bits is exact if the products of all selections of them fit. -/
theorem redInts_prod (ok : RedOk R mem t .multiplies) (hb : 32 ≤ t.bits) {g : List Int → Outcome Int} (hg : LaneWise R.trans g)
    {ys : List Int} (hy : transformed R g mem = ys.map .ok) {init : Int}
    (hf : ∀ zs : List Int, zs.Sublist (init :: ys) → t.Has zs.prod) : sumInts R mem init = .ok (init * ys.prod) := by
  have hv : ValidTy t := ⟨by omega, .inr hb⟩
  obtain ⟨v, h1, h2⟩ := gsum_of ok hg hy init
  have hh' : LanesOf t (init :: ys) := fun x hx => by simpa using hf [x] (List.singleton_sublist.2 hx)
  have e : sumInts R mem init = v := by rw [sumInts, h1]; rfl
  rw [e]
  have hsub : ∀ as : List Int, as.Subperm (init :: ys) → t.Has as.prod := fun as ⟨l, h1, h2⟩ => by rw [← prod_perm h1]; exact hf l h2
  obtain ⟨r, h⟩ := gsum_defined hv h2 rfl hh' fun as bs a b hsp ha hb' => by
    have e1 := isWrapped_has hv.1 ha (hsub as ((List.sublist_append_left as bs).subperm.trans hsp))
    have e2 := isWrapped_has hv.1 hb' (hsub bs ((List.sublist_append_right as bs).subperm.trans hsp))
    rintro (⟨_, _, hn⟩ | ⟨hn, _⟩)
    · rw [e1, e2, ← prod_append'] at hn
      exact hn (hsub _ hsp)
    · omega
  rw [h, isWrapped_has hv.1 (gsum_reduction hv h2 rfl hh' r h) (hf _ (List.Sublist.refl _))]
  simp

private theorem prod_abs {ys zs : List Int} (h : ys.Sublist zs) :
    ys.prod.natAbs ≤ ((zs.filter (· ≠ 0)).map Int.natAbs).prod ∧ 1 ≤ ((zs.filter (· ≠ 0)).map Int.natAbs).prod := by
  induction h with
  | slnil => simp
  | @cons l₁ l₂ a _ ih =>
    by_cases ha : a = 0
    · simpa [List.filter_cons, ha] using ih
    · have h1 : 1 ≤ a.natAbs := by omega
      simp only [List.filter_cons, ha, ne_eq, not_false_eq_true, decide_true, if_true, List.map_cons, List.prod_cons] at ih ⊢
      have := Nat.mul_le_mul h1 ih.1
      have := Nat.mul_le_mul h1 ih.2
      omega
  | @cons_cons l₁ l₂ a _ ih =>
    by_cases ha : a = 0
    · simp only [List.filter_cons, ha, ne_eq, not_true_eq_false, decide_false, Bool.false_eq_true, if_false, List.prod_cons, Int.zero_mul,
        Int.natAbs_zero] at ih ⊢
      exact ⟨by omega, ih.2⟩
    · have h1 : 1 ≤ a.natAbs := by omega
      simp only [List.filter_cons, ha, ne_eq, not_false_eq_true, decide_true, if_true, List.map_cons, List.prod_cons, Int.natAbs_mul] at ih ⊢
      have := Nat.mul_le_mul_left a.natAbs ih.1
      have := Nat.mul_le_mul h1 ih.2
      omega

/-- **C101.** If the product of the absolute values of the elements that are not zero fits, so do the products of all selections: the condition
of `redInts_prod` can be checked with one number. -/
theorem prod_condition (hs : t.signed = true) {zs : List Int} (h : (((zs.filter (· ≠ 0)).map Int.natAbs).prod : Int) ≤ t.max) :
    ∀ ys : List Int, ys.Sublist zs → t.Has ys.prod := by
  intro ys hy
  have h1 := (prod_abs hy).1
  have h2 : (ys.prod.natAbs : Int) ≤ t.max := by omega
  unfold IntTy.Has IntTy.lowest
  unfold IntTy.max at h2 ⊢
  simp only [hs, if_true] at h2 ⊢
  omega

private theorem foldlM_foldE (ys : List Int) (a : Int) : ys.foldlM (fun a y => o.binOp.eval t a y) a = foldE t o.binOp a ys := by
  induction ys generalizing a with
  | nil => rfl
  | cons y ys ih =>
    rw [List.foldlM_cons, foldE]
    congr 1
    funext b
    exact ih b

/-- **C101.** The result agrees with the sequential fold from left to right whenever both are defined. -/
theorem redInts_sequential (ok : RedOk R mem t o) (hv : ValidTy t) {g : List Int → Outcome Int} (hg : LaneWise R.trans g) {ys : List Int}
    (hy : transformed R g mem = ys.map .ok) (hh : LanesOf t ys) {init : Int} (hi : t.Has init) {r s : Int}
    (h : sumInts R mem init = .ok r) (h' : ys.foldlM (fun a y => o.binOp.eval t a y) init = .ok s) : r = s := by
  rw [foldlM_foldE] at h'
  have h2 : IsReduction t o ([init] ++ ys) s := foldE_value hv (isReduction_single hi) hh h'
  rcases redInts_value ok hv hg hy hh hi with ⟨r', e1, e2⟩ | e
  · rw [h] at e1
    cases e1
    exact isReduction_unique hv.1 e2 h2
  · rw [h] at e; cases e

/-- **C101.** The horizontal reduction of the fallback simd (C37) is one the theorems apply to. -/
theorem fallback_redOp (t : IntTy) (o : RedOp) : ∃ hred : List (Outcome Int) → Outcome Int, HReduce (redOp t o) hred ∧
    ∀ v : List Int, v ≠ [] → v.length < 2 ^ 31 → hred (v.map .ok) = reduceInt t o v := by
  have : Inhabited (Outcome Int) := ⟨.ok 0⟩
  obtain ⟨hred, h1, h2⟩ := reduceV_meets_HReduce (vop := fun l r => .ok (List.zipWith (redOp t o) l r)) (op := redOp t o) (fun _ _ _ => rfl)
  refine ⟨hred, h1, fun v h0 hw => ?_⟩
  have e1 := h2 (v.map .ok) (by simpa using h0) (by simpa using hw)
  have e2 := reduceIntF_lazy (t := t) (o := o) v.length v h0 (Nat.le_refl _) (by omega)
  rw [reduceV, List.length_map] at e1
  have : Outcome.ok (hred (v.map .ok)) = Outcome.ok (reduceInt t o v) := e1.symm.trans e2
  injection this

/-! ### The hypotheses are met -/

private def foldRed (t : IntTy) (o : RedOp) (v : List (Outcome Int)) : Outcome Int := v.tail.foldl (redOp t o) (v.headD (.ok 0))

private theorem foldRed_ok (t : IntTy) (o : RedOp) : HReduce (redOp t o) (foldRed t o) := by
  intro v hv
  cases v with
  | nil => exact absurd rfl hv
  | cons x xs => exact Simd.foldl_gsum (redOp t o) x xs

private def idOp : VecOp Int (Outcome Int) where
  call args := (args.headD []).map .ok
  shape w args hne hl := by
    cases args with
    | nil => exact absurd rfl hne
    | cons a as => simp [hl a (by simp)]

private def exG : List Int → Outcome Int
  | x :: _ => .ok x
  | [] => .ub .staticAssert

private theorem idOp_laneWise : LaneWise idOp exG := by
  intro w args hne hl
  cases args with
  | nil => exact absurd rfl hne
  | cons a as =>
    have ha := hl a (by simp)
    refine List.ext_getElem (by simp [idOp, ha]) fun i h1 h2 => ?_
    have hi : i < a.length := by simpa [idOp] using h1
    simp [idOp, exG, List.filterMap_cons, hi]

/-- `vir::reduce(policy, range, init, o)` for a range of `n` elements of type `t`. -/
private def exRed (pol : List PolicyOption) (t : IntTy) (o : RedOp) (n : Nat) : REnv Int (Outcome Int) (Outcome Int) where
  e := { exampleEnv with pol := ⟨pol⟩ }
  ins := [0]
  n := n
  trans := idOp
  rB := redOp t o
  rT := redOp t o
  cvt := id
  hredB := foldRed t o
  hredT := foldRed t o

private theorem exRed_ok {pol : List PolicyOption} {n : Nat} {mem : List Int}
    (hp : (⟨pol⟩ : Policy).Reachable) (hm : n ≤ mem.length) (hn : n * 4 < 2 ^ 64)
    (h1 : n = 0 ∨ proCount (exRed pol t o n).e n < n) (h2 : (⟨pol⟩ : Policy).assumeMatchingSize = false) :
    RedOk (exRed pol t o n) mem t o := by
  have wf : (exRed pol t o n).e.WF := libstdcxx_wf _ (show 0 < 4 by decide) ⟨2, rfl⟩ rfl (show 4 ∣ 0x1004 by decide) hp
    (show stdBitCeil (4 * 4) ≤ 4000 by decide)
  refine ⟨rfl, rfl, rfl, ⟨by simp [exRed], by simpa [exRed] using hm⟩, ?_, wf, rfl, hn, ?_, ?_, foldRed_ok t o, foldRed_ok t o⟩
  · intro h
    have : (⟨pol⟩ : Policy).assumeMatchingSize = true := h
    rw [h2] at this; cases this
  · rw [reaches_iff wf]
    show n = 0 ∨ proCount (exRed pol t o n).e n ≤ n
    omega
  · rw [ends_iff wf]
    show ¬ (n ≠ 0 ∧ proCount (exRed pol t o n).e n = n)
    omega

private def data : List Int := [251, 127, 63, 255, 191, 239, 247, 127, 255, 255, 191]

-- eleven bytes with a prologue and an epilogue
example (o : RedOp) := redInts_defined (t := .u8) (o := o) (exRed_ok (pol := [.preferAligned]) (n := 11) (mem := data) ⟨[.preferAligned], by decide⟩
  (by decide) (by decide) (by cases o <;> decide +kernel) (by decide)) ⟨by decide, by decide⟩ (by cases o <;> simp [NeverOverflows, IntTy.u8])
  idOp_laneWise (ys := data) (by cases o <;> decide +kernel) (by unfold LanesOf data; decide) (init := 255) (by decide)
example : sumInts (exRed [.preferAligned] .u8 .bitAnd 11) data 255 = .ok 35 ∧ sumInts (exRed [.preferAligned] .u8 .bitXor 11) data 1 = .ok 34 ∧
    sumInts (exRed [.preferAligned] .u8 .multiplies 11) data 1 = .ok 195 := by
  refine ⟨?_, ?_, ?_⟩ <;> decide +kernel
-- seven factors of type int
example : sumInts (exRed [] .i32 .multiplies 7) [2, -3, 5, 0, 7, -11, 13] 17 = .ok (17 * 0) :=
  redInts_prod (exRed_ok ⟨[], by decide⟩ (by decide) (by decide) (by decide +kernel) (by decide)) (by decide) idOp_laneWise
    (ys := [2, -3, 5, 0, 7, -11, 13]) (by decide +kernel) (prod_condition rfl (by decide))

/-- **C101, limit of the claim.** The product of two elements of type `unsigned short` is undefined although the type is unsigned. -/
theorem redInts_u16_overflow : ∃ R : REnv Int (Outcome Int) (Outcome Int), RedOk R [65535] .u16 .multiplies ∧
    sumInts R [65535] 65535 = .ub .overflow :=
  ⟨exRed [] .u16 .multiplies 1, exRed_ok ⟨[], by decide⟩ (by decide) (by decide) (by decide +kernel) (by decide), by decide +kernel⟩

end Vir
