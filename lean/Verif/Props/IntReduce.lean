import Verif.Lemmas.IntReduce
import Verif.Props.TransformReduce
import Verif.Props.HReduce

/-!
# C70: sums of integers with `vir::reduce` and `vir::transform_reduce`

The elements of the range are integers, the transformed elements and the accumulators are values that may be undefined
(`Outcome Int`), and the operations are strict: since C14 says that every intermediate value goes into the result, the program has
undefined behaviour exactly if the returned value is undefined.
-/

namespace Vir
open Spec ForEach TransformReduce

/-- `transform_reduce(policy, ..., init, std::plus<>(), transform_op)` for aggregation in integers, and with other operations. -/
def sumInts {β : Type} (R : REnv β (Outcome β) (Outcome β)) (mem : List β) (init : β) : Outcome β := do
  let v ← transformReduce R mem (.ok init)
  v

variable {R : REnv Int (Outcome Int) (Outcome Int)} {mem : List Int} {t : IntTy}

/-- The operations of `R` are additions in the type `t`, and the preconditions of C14 are met. -/
structure Spec.SumOk (R : REnv Int (Outcome Int) (Outcome Int)) (mem : List Int) (t : IntTy) : Prop where
  rB : R.rB = plusOp t
  rT : R.rT = plusOp t
  cvt : R.cvt = id
  ins : InputsOk R mem
  wf : R.e.WF
  run : R.e.constEval = false
  flat : R.e.strictPtr = false
  fits : R.e.Fits R.n
  reach : ReachesAlignment R.e R.n
  ends : ¬ EndsAtFirstAligned R.e R.n
  assume : R.e.pol.assumeMatchingSize = true → R.e.size ∣ R.n
  hT : HReduce (plusOp t) R.hredT
  hB : HReduce (plusOp t) R.hredB

private theorem gsum_of (ok : SumOk R mem t) {g : List Int → Outcome Int} (hg : LaneWise R.trans g) {ys : List Int}
    (hy : transformed R g mem = ys.map .ok) (init : Int) :
    ∃ v, transformReduce R mem (.ok init) = .ok v ∧ GSum (plusOp t) ((init :: ys).map .ok) v := by
  have := transformReduce_is_gsum (by rw [ok.rB, ok.rT]) ok.cvt ok.ins ok.wf ok.run ok.flat ok.fits ok.reach ok.ends ok.assume
    (ok.rT ▸ ok.hT) (ok.rT ▸ ok.hB) g hg (.ok init)
  rw [hy, ok.rT] at this
  exact this

/-- **C70.** Sums of unsigned integers and of integers narrower than `int` never overflow: the result is the mathematical sum modulo
`2^bits`. -/
theorem sumInts_wraps (ok : SumOk R mem t) (hw : WrapsAround t) {g : List Int → Outcome Int} (hg : LaneWise R.trans g)
    {ys : List Int} (hy : transformed R g mem = ys.map .ok) (hh : ∀ y ∈ ys, t.Has y) {init : Int} (hi : t.Has init) :
    sumInts R mem init = .ok (t.conv (init + ys.sum)) := by
  obtain ⟨v, h1, h2⟩ := gsum_of ok hg hy init
  have hh' : ∀ z ∈ init :: ys, t.Has z := by simpa using ⟨hi, hh⟩
  have hb : 0 < t.bits := by rcases hw with ⟨_, h⟩ | ⟨h, _⟩ <;> omega
  obtain ⟨w, rfl, _⟩ := gsum_wraps hw h2 rfl hh'
  have := (gsum_value hb h2 rfl hh' w rfl).1
  rw [sumInts, h1, this]
  simp

/-- **C70.** Sums of `int`, `long` and `long long` are defined and equal to the mathematical sum if no selection of the elements and
`init` has a sum outside the type. -/
theorem sumInts_defined (ok : SumOk R mem t) (hs : t.signed = true) (hb : 32 ≤ t.bits) {g : List Int → Outcome Int}
    (hg : LaneWise R.trans g) {ys : List Int} (hy : transformed R g mem = ys.map .ok) {init : Int}
    (hf : SubSumsFit t (init :: ys)) : sumInts R mem init = .ok (init + ys.sum) := by
  obtain ⟨v, h1, h2⟩ := gsum_of ok hg hy init
  rw [sumInts, h1, gsum_fits hs hb h2 rfl hf]
  simp

/-- **C70.** That is the case exactly if the sum of the positive and the sum of the negative ones are values of the type. -/
theorem sumInts_condition (zs : List Int) : SubSumsFit t zs ↔
    (zs.filter (fun z => decide (0 < z))).sum ≤ t.max ∧ t.lowest ≤ (zs.filter (fun z => decide (z < 0))).sum ∧ t.Has 0 :=
  subSumsFit_iff zs

/-- **C70.** Whenever the call returns a value at all, it is the right one. -/
theorem sumInts_value (ok : SumOk R mem t) (hb : 0 < t.bits) {g : List Int → Outcome Int} (hg : LaneWise R.trans g)
    {ys : List Int} (hy : transformed R g mem = ys.map .ok) (hh : ∀ y ∈ ys, t.Has y) {init : Int} (hi : t.Has init) {w : Int}
    (h : sumInts R mem init = .ok w) : w = t.conv (init + ys.sum) := by
  obtain ⟨v, h1, h2⟩ := gsum_of ok hg hy init
  rw [sumInts, h1] at h
  exact (gsum_value hb h2 rfl (by simpa using ⟨hi, hh⟩) w h).1.trans (by simp)

/-- **C70 (the condition cannot be weakened without fixing the order).** If some selection has a sum outside the type, some order and
grouping of the additions overflows. -/
theorem sumInts_condition_needed (hs : t.signed = true) (hb : 32 ≤ t.bits) {zs : List Int} (hz : ∀ z ∈ zs, t.Has z)
    (h : ¬ SubSumsFit t zs) : GSum (plusOp t) (zs.map .ok) (.ub .overflow) := gsum_overflow hs hb hz h

/-- **C70 (wider aggregation type).** Without alignment prologue the elements (of any type `R.rB` adds up) are added in the type of
`init` only. -/
theorem sumInts_widening (hT : R.rT = plusOp t) (hc : R.cvt = id) (ins : InputsOk R mem) (wf : R.e.WF)
    (run : R.e.constEval = false) (flat : R.e.strictPtr = false) (fits : R.e.Fits R.n)
    (np : R.e.pol.prefersAligned = false ∧ R.e.pol.autoPrologue = false)
    (assume : R.e.pol.assumeMatchingSize = true → R.e.size ∣ R.n) (hrT : HReduce (plusOp t) R.hredT) (hrB : HReduce R.rB R.hredB)
    (hs : t.signed = true) (hb : 32 ≤ t.bits) {g : List Int → Outcome Int}
    (hg : LaneWise R.trans g) {ys : List Int} (hy : transformed R g mem = ys.map .ok) {init : Int}
    (hf : SubSumsFit t (init :: ys)) : sumInts R mem init = .ok (init + ys.sum) := by
  obtain ⟨v, h1, h2⟩ := transformReduce_gsum_partial ins wf run flat fits
    (fun h => by rw [np.1] at h; simp at h)
    (fun h => by
      rcases h.1 with h | h
      · rw [np.1] at h; simp at h
      · rw [np.2] at h; simp at h) assume (hT ▸ hrT) hrB (Or.inr np) g hg (.ok init)
  rw [hc, List.map_id, hy, hT] at h2
  rw [sumInts, h1, gsum_fits hs hb (zs := init :: ys) h2 rfl hf]
  simp

/-! ### The hypotheses are met, and a sequential sum may be defined where this one is not -/

private def foldPlus (t : IntTy) (v : List (Outcome Int)) : Outcome Int := v.tail.foldl (plusOp t) (v.headD (.ok 0))

private theorem foldPlus_ok (t : IntTy) : HReduce (plusOp t) (foldPlus t) := by
  intro v hv
  cases v with
  | nil => exact absurd rfl hv
  | cons x xs => exact Simd.foldl_gsum (plusOp t) x xs

/-- The elements themselves (one range) or their products (two ranges). -/
def exProd (t : IntTy) : List Int → Outcome Int
  | [x] => .ok x
  | [x, y] => BinOp.eval t .mul x y
  | _ => .ub .staticAssert

private def prodOp (t : IntTy) : VecOp Int (Outcome Int) where
  call args := (List.range (args.headD []).length).map fun i => exProd t (args.filterMap (·[i]?))
  shape w args hne hl := by
    cases args with
    | nil => exact absurd rfl hne
    | cons a as => simp [hl a (by simp)]

private theorem prodOp_laneWise (t : IntTy) : LaneWise (prodOp t) (exProd t) := by
  intro w args hne hl
  cases args with
  | nil => exact absurd rfl hne
  | cons a as => simp [prodOp, hl a (by simp)]

/-- `vir::reduce(policy, ints, init)` or the inner product, with transformed elements of type `tB` and `init` of type `tT`; see C78 for when
they can differ. -/
def exSum (pol : List PolicyOption) (ins : List Nat) (tB tT : IntTy) (n : Nat) : REnv Int (Outcome Int) (Outcome Int) where
  e := { exampleEnv with pol := ⟨pol⟩ }
  ins := ins
  n := n
  trans := prodOp tB
  rB := plusOp tB
  rT := plusOp tT
  cvt := id
  hredB := foldPlus tB
  hredT := foldPlus tT

theorem exSum_ok {pol : List PolicyOption} {ins : List Nat} {t : IntTy} {n : Nat} {mem : List Int}
    (hp : (⟨pol⟩ : Policy).Reachable) (hi : ins ≠ []) (hm : ∀ a ∈ ins, a + n ≤ mem.length) (hn : n * 4 < 2 ^ 64)
    (h1 : n = 0 ∨ proCount (exSum pol ins t t n).e n < n) (h2 : (⟨pol⟩ : Policy).assumeMatchingSize = false) :
    SumOk (exSum pol ins t t n) mem t := by
  have wf : (exSum pol ins t t n).e.WF := libstdcxx_wf _ (show 0 < 4 by decide) ⟨2, rfl⟩ rfl (show 4 ∣ 0x1004 by decide) hp
    (show stdBitCeil (4 * 4) ≤ 4000 by decide)
  refine ⟨rfl, rfl, rfl, ⟨hi, hm⟩, wf, rfl, rfl, hn, ?_, ?_, ?_, foldPlus_ok t, foldPlus_ok t⟩
  · rw [reaches_iff wf]
    show n = 0 ∨ proCount (exSum pol ins t t n).e n ≤ n
    omega
  · rw [ends_iff wf]
    show ¬ (n ≠ 0 ∧ proCount (exSum pol ins t t n).e n = n)
    omega
  · intro h
    have : (⟨pol⟩ : Policy).assumeMatchingSize = true := h
    rw [h2] at this; cases this

-- an inner product of eleven elements of type int, with a prologue and an epilogue
example : sumInts (exSum [.preferAligned] [0, 11] .i32 .i32 11) ((List.range 22).map Int.ofNat) (-7) = .ok (-7 + 990) := by
  refine sumInts_defined (exSum_ok ⟨[.preferAligned], by decide⟩ (by decide) (by decide) (by decide) (by decide +kernel) (by decide))
    rfl (by decide) (prodOp_laneWise _) (ys := [0, 12, 26, 42, 60, 80, 102, 126, 152, 180, 210]) (by decide +kernel) ?_
  rw [sumInts_condition]
  decide

-- forty bytes
example : sumInts (exSum [] [0] .u8 .u8 40) (List.replicate 40 255) 0 = .ok 216 := by
  refine sumInts_wraps (exSum_ok (t := .u8) ⟨[], by decide⟩ (by decide) (by decide) (by decide) (by decide +kernel) (by decide))
    (Or.inr (by decide)) (prodOp_laneWise _) (ys := List.replicate 40 255) (by decide +kernel) (by decide) (by decide)

-- int elements, long init
example : sumInts (exSum [] [0] .i32 .i64 8) (List.replicate 8 2000000000) 5 = .ok (5 + 16000000000) := by
  have wf : (exSum [] [0] .i32 .i64 8).e.WF := libstdcxx_wf _ (show 0 < 4 by decide) ⟨2, rfl⟩ rfl (show 4 ∣ 0x1004 by decide)
    ⟨[], by decide⟩ (show stdBitCeil (4 * 4) ≤ 4000 by decide)
  refine sumInts_widening rfl rfl ⟨by decide, by decide⟩ wf rfl rfl (show 8 * 4 < 2 ^ 64 by decide) (by decide) (by decide)
    (foldPlus_ok .i64) (foldPlus_ok .i32) rfl (by decide) (prodOp_laneWise .i32) (ys := List.replicate 8 2000000000)
    (by decide +kernel) ?_
  rw [sumInts_condition]
  decide

/-- **C70 (a defined sequential sum is not enough).** Added up from left to right these elements do not overflow, but they do in
`vir::reduce`. -/
theorem sumInts_order_overflow : ∃ xs : List Int, (∀ x ∈ xs, IntTy.i32.Has x) ∧
    (xs.map Outcome.ok).foldl (plusOp .i32) (.ok 0) = .ok xs.sum ∧
    SumOk (exSum [] [0] .i32 .i32 8) xs .i32 ∧ sumInts (exSum [] [0] .i32 .i32 8) xs 0 = .ub .overflow :=
  ⟨[2147483647, -1, 0, 0, 1, 0, 0, 0], by decide, by decide +kernel,
    exSum_ok ⟨[], by decide⟩ (by decide) (by decide) (by decide) (by decide +kernel) (by decide), by decide +kernel⟩

/-- **C70 (with alignment prologue the wider type of `init` is no help).** The elements of type `int` before the first aligned address
are added as `int`. (For calls that compile: with a `transform_op` that returns `long long` for single elements only, C78.) -/
theorem sumInts_prologue_overflow :
    sumInts (exSum [] [0] .i32 .i64 8) (List.replicate 8 2000000000) 0 = .ok 16000000000 ∧
    sumInts (exSum [.preferAligned] [0] .i32 .i64 8) (List.replicate 8 2000000000) 0 = .ub .overflow := by
  constructor <;> decide +kernel

/-! ## The theorems applied to concrete data -/

example := sumInts_value (exSum_ok (pol := [.preferAligned]) (ins := [0, 11]) (n := 11) (t := .i32) (mem := (List.range 22).map Int.ofNat)
  ⟨[.preferAligned], by decide⟩ (by decide) (by decide) (by decide) (by decide +kernel) (by decide))
  (by decide) (prodOp_laneWise _) (ys := [0, 12, 26, 42, 60, 80, 102, 126, 152, 180, 210]) (by decide +kernel) (by decide) (init := -7) (by decide)
  (w := 983) (by decide +kernel)
example := sumInts_condition_needed (t := .i32) rfl (by decide) (zs := [2000000000, 2000000000, -2000000000]) (by decide) (by
  rw [sumInts_condition]; decide)

end Vir
