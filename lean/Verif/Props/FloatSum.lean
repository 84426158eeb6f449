import Verif.Lemmas.FloatProduct
import Verif.Props.HReduce
import Verif.Props.Reduce
import Mathlib.Data.Finset.Max
import Mathlib.Data.Finset.Prod
import Mathlib.Order.Interval.Finset.Defs
import Mathlib.Data.Int.Interval
import Mathlib.Tactic.IntervalCases
import Mathlib.Tactic.NormNum

/-!
# C89: rounding errors of floating-point sums
-/

namespace Vir
open Spec Convert FloatSum

variable {f : FloatTy} {rnd : ℚ → ℚ} {u : ℚ}

private theorem roundsTo (h : Roundoff f rnd u) : RoundsTo f rnd := by
  rcases h with ⟨h, -⟩ | ⟨h, -⟩
  · exact h.1
  · exact h

private theorem nonneg (h : Roundoff f rnd u) : 0 ≤ u := by
  rcases h with ⟨-, rfl⟩ | ⟨-, rfl⟩ <;> exact zpow_nonneg (by norm_num) _

/-- **C89 (one addition).** An addition of two values of the format that does not overflow has a relative error of at most `u`. -/
theorem fadd_error (hf : StandardFloat f) (h : Roundoff f rnd u) {a b : ℚ} (ha : FloatValue f a) (hb : FloatValue f b)
    (hm : |a + b| ≤ f.max) : |fadd rnd a b - (a + b)| ≤ u * |a + b| := by
  rcases h with ⟨h, rfl⟩ | ⟨h, rfl⟩
  · exact addError_nearest hf h a b ha hb hm
  · exact addError_any hf h a b ha hb hm

/-- **C89 (one multiplication).** -/
theorem fmul_error (hf : StandardFloat f) (h : Roundoff f rnd u) {a b : ℚ} (hm : |a * b| ≤ f.max) :
    |fmul rnd a b - a * b| ≤ u * |a * b| + denormMin f := by
  rcases h with ⟨h, rfl⟩ | ⟨h, rfl⟩
  · refine (round_nearest hf h hm).trans ?_
    have : (2 : ℚ) ^ ((2 : ℤ) - f.emax - f.digits) ≤ denormMin f := zpow_le_zpow_right₀ (by norm_num) (by omega)
    linarith
  · exact round_any hf h hm

/-- **C89 (any order and grouping).** A generalized sum of values of the format is accurate, if the bound says that it cannot overflow. -/
theorem gsum_float_error (hf : StandardFloat f) (h : Roundoff f rnd u) {xs : List ℚ} {v : ℚ} (hs : GSum (fadd rnd) xs v)
    (hx : ∀ x ∈ xs, FloatValue f x) (hm : (1 + u) ^ (xs.length - 1) * absSum xs ≤ f.max) :
    FloatValue f v ∧ |v - xs.sum| ≤ ((1 + u) ^ (xs.length - 1) - 1) * absSum xs :=
  gsum_error (roundsTo h) (nonneg h) (fun _ _ ha hb hm => fadd_error hf h ha hb hm) hs hx hm

/-- **C89 (`reduce` of a simd).** -/
theorem hreduce_float_error (hf : StandardFloat f) (h : Roundoff f rnd u) {vop : List ℚ → List ℚ → Outcome (List ℚ)}
    (hv : ∀ l r, l.length = r.length → vop l r = .ok (List.zipWith (fadd rnd) l r)) (v : List ℚ) (h0 : v ≠ []) (hw : v.length < 2 ^ 31)
    (hx : ∀ x ∈ v, FloatValue f x) (hm : (1 + u) ^ (v.length - 1) * absSum v ≤ f.max) :
    ∃ x, Simd.reduceV vop (fadd rnd) v = .ok x ∧ FloatValue f x ∧ |x - v.sum| ≤ ((1 + u) ^ (v.length - 1) - 1) * absSum v := by
  obtain ⟨x, h1, h2⟩ := Simd.reduceV_is_gsum hv v h0 hw
  exact ⟨x, h1, gsum_float_error hf h h2 hx hm⟩

variable {α : Type}

/-- **C89 (`transform_reduce`).** The sum that `transform_reduce` computes in a floating-point type, with any policy and in any rounding
mode, is a value of the type and differs from the exact sum of `init` and the transformed elements by at most `(1 + u) ^ n - 1` times
the sum of their absolute values, unless there is a danger of overflow. -/
theorem transformReduce_float_error (hf : StandardFloat f) (h : Roundoff f rnd u) {R : REnv α ℚ ℚ} {mem : List α} (hr1 : R.rB = fadd rnd)
    (hr2 : R.rT = fadd rnd) (hr3 : R.cvt = id) (ok : InputsOk R mem) (run : RunOk R.e R.n)
    (hT : HReduce (fadd rnd) R.hredT) (hB : HReduce (fadd rnd) R.hredB) (g : List α → ℚ) (hg : LaneWise R.trans g) (init : ℚ)
    (hx : ∀ x ∈ init :: transformed R g mem, FloatValue f x)
    (hm : (1 + u) ^ R.n * absSum (init :: transformed R g mem) ≤ f.max) :
    ∃ v, TransformReduce.transformReduce R mem init = .ok v ∧ FloatValue f v ∧
      |v - (init + (transformed R g mem).sum)| ≤ ((1 + u) ^ R.n - 1) * absSum (init :: transformed R g mem) := by
  obtain ⟨v, h1, h2⟩ := transformReduce_is_gsum (hr1.trans hr2.symm) hr3 ok run.wf run.run run.ptr run.fits run.reaches run.notWhole
    run.matching (hr2 ▸ hT) (hr2 ▸ hB) g hg init
  rw [hr2] at h2
  have hl : (init :: transformed R g mem).length - 1 = R.n := by simp [transformed]
  rw [← hl] at hm ⊢
  have := gsum_float_error hf h h2 hx hm
  exact ⟨v, h1, this.1, by simpa using this.2⟩

/-- **C89 (`reduce`).** -/
theorem reduce_float_error (hf : StandardFloat f) (h : Roundoff f rnd u) {e : Env} {base n : Nat} {mem : List ℚ} (ok : RunOk e n)
    (hle : base + n ≤ mem.length) (hred : List ℚ → ℚ) (hh : HReduce (fadd rnd) hred) (init : ℚ) (hi : FloatValue f init)
    (hx : ∀ x ∈ mem, FloatValue f x) (hm : (1 + u) ^ n * (|init| + absSum ((mem.drop base).take n)) ≤ f.max) :
    ∃ v, TransformReduce.reduceInit e base n (fadd rnd) (fadd rnd) id hred hred mem init = .ok v ∧ FloatValue f v ∧
      |v - (init + ((mem.drop base).take n).sum)| ≤ ((1 + u) ^ n - 1) * (|init| + absSum ((mem.drop base).take n)) := by
  obtain ⟨v, h1, h2⟩ := reduce_is_gsum ok hle (fadd rnd) hred hh init
  refine ⟨v, h1, ?_⟩
  have hs : slice mem base n = (mem.drop base).take n := rfl
  rw [hs] at h2
  have hl : (init :: (mem.drop base).take n).length - 1 = n := by simp; omega
  have ha : absSum (init :: (mem.drop base).take n) = |init| + absSum ((mem.drop base).take n) := by simp [absSum]
  have := gsum_float_error hf h h2 (by
    intro x hm
    rcases List.mem_cons.1 hm with rfl | hm
    · exact hi
    · exact hx x (List.mem_of_mem_drop (List.mem_of_mem_take hm))) (by rw [hl, ha]; exact hm)
  rw [hl, ha, List.sum_cons] at this
  exact this

private theorem products (hf : StandardFloat f) (h : Roundoff f rnd u) (xs ys : List ℚ)
    (hm : absSum (List.zipWith (· * ·) xs ys) ≤ f.max) :
    absSum (List.zipWith (fmul rnd) xs ys) ≤ (1 + u) * absSum (List.zipWith (· * ·) xs ys) + min xs.length ys.length * denormMin f ∧
    |(List.zipWith (fmul rnd) xs ys).sum - (List.zipWith (· * ·) xs ys).sum| ≤
      u * absSum (List.zipWith (· * ·) xs ys) + min xs.length ys.length * denormMin f := by
  induction xs generalizing ys with
  | nil => simp [absSum]
  | cons x xs ih =>
    cases ys with
    | nil => simp [absSum]
    | cons y ys =>
      have e (z : ℚ) (zs : List ℚ) : absSum (z :: zs) = |z| + absSum zs := by simp [absSum]
      simp only [List.zipWith_cons_cons, e, List.sum_cons] at hm ⊢
      have p1 := absSum_nonneg (List.zipWith (· * ·) xs ys)
      have p2 := abs_nonneg (x * y)
      obtain ⟨i1, i2⟩ := ih ys (by linarith)
      have i3 := fmul_error hf h (a := x) (b := y) (by linarith)
      have hmin : ((min (x :: xs).length (y :: ys).length : ℕ) : ℚ) = (min xs.length ys.length : ℕ) + 1 := by
        rw [List.length_cons, List.length_cons, Nat.add_min_add_right]
        push_cast
        rfl
      rw [hmin]
      have a1 : |fmul rnd x y| ≤ |fmul rnd x y - x * y| + |x * y| := by
        have := abs_add_le (fmul rnd x y - x * y) (x * y); simpa using this
      constructor
      · linarith
      · have e2 : fmul rnd x y + (List.zipWith (fmul rnd) xs ys).sum - (x * y + (List.zipWith (· * ·) xs ys).sum) =
            (fmul rnd x y - x * y) + ((List.zipWith (fmul rnd) xs ys).sum - (List.zipWith (· * ·) xs ys).sum) := by ring
        rw [e2]
        have := abs_add_le (fmul rnd x y - x * y) ((List.zipWith (fmul rnd) xs ys).sum - (List.zipWith (· * ·) xs ys).sum)
        linarith

/-- **C89 (inner product).** `transform_reduce` without callables: the products are rounded too. -/
theorem innerProduct_float_error (hf : StandardFloat f) (h : Roundoff f rnd u) {e : Env} {base1 base2 n : Nat} {mem : List ℚ}
    (ok : RunOk e n) (h1 : base1 + n ≤ mem.length) (h2 : base2 + n ≤ mem.length) (hred : List ℚ → ℚ) (hh : HReduce (fadd rnd) hred)
    (init : ℚ) (hi : FloatValue f init) (p : List ℚ)
    (hp : p = List.zipWith (· * ·) ((mem.drop base1).take n) ((mem.drop base2).take n))
    (hm : (1 + u) ^ n * (|init| + (1 + u) * absSum p + n * denormMin f) ≤ f.max) :
    ∃ v, TransformReduce.innerProduct e base1 base2 n (fadd rnd) (fmul rnd) hred mem init = .ok v ∧ FloatValue f v ∧
      |v - (init + p.sum)| ≤
        ((1 + u) ^ n - 1) * |init| + ((1 + u) ^ (n + 1) - 1) * absSum p + (1 + u) ^ n * n * denormMin f := by
  obtain ⟨v, hv1, hv2⟩ := innerProduct_is_gsum ok h1 h2 (fadd rnd) (fmul rnd) hred hh init
  refine ⟨v, hv1, ?_⟩
  have hs (b : Nat) : slice mem b n = (mem.drop b).take n := rfl
  rw [hs, hs] at hv2
  have hl1 : ((mem.drop base1).take n).length = n := by simp; omega
  have hl2 : ((mem.drop base2).take n).length = n := by simp; omega
  have hu := nonneg h
  have g1 : 1 ≤ (1 + u) ^ n := one_le_pow₀ (by linarith)
  have d0 : 0 ≤ denormMin f := (zpow_pos (by norm_num) _).le
  have p0 := absSum_nonneg p
  have i0 := abs_nonneg init
  have n0 : (0 : ℚ) ≤ n := Nat.cast_nonneg n
  have nd : 0 ≤ n * denormMin f := mul_nonneg n0 d0
  have up : 0 ≤ u * absSum p := mul_nonneg hu p0
  have t0 : |init| + (1 + u) * absSum p + n * denormMin f ≤ f.max := by nlinarith
  have hprod := products hf h ((mem.drop base1).take n) ((mem.drop base2).take n) (by rw [← hp]; nlinarith)
  rw [← hp, hl1, hl2, min_self] at hprod
  set q := List.zipWith (fmul rnd) ((mem.drop base1).take n) ((mem.drop base2).take n) with hq
  have hl : (init :: q).length - 1 = n := by rw [hq]; simp; omega
  have ha : absSum (init :: q) = |init| + absSum q := by simp [absSum]
  have key := gsum_float_error hf h hv2 (by
    intro x hx
    rcases List.mem_cons.1 hx with rfl | hx
    · exact hi
    · rw [hq, ← List.map_uncurry_zip_eq_zipWith, List.mem_map] at hx
      obtain ⟨y, -, rfl⟩ := hx
      exact (roundsTo h).2.2 _) (by
    rw [hl, ha]
    refine le_trans (mul_le_mul_of_nonneg_left ?_ (by linarith)) hm
    linarith [hprod.1])
  refine ⟨key.1, ?_⟩
  have k2 := key.2
  rw [hl, ha, List.sum_cons] at k2
  have e1 : v - (init + p.sum) = (v - (init + q.sum)) + (q.sum - p.sum) := by ring
  rw [e1]
  refine (abs_add_le _ _).trans ?_
  have k3 : ((1 + u) ^ n - 1) * (|init| + absSum q) ≤ ((1 + u) ^ n - 1) * (|init| + ((1 + u) * absSum p + n * denormMin f)) :=
    mul_le_mul_of_nonneg_left (by linarith [hprod.1]) (by linarith)
  rw [pow_succ]
  nlinarith [hprod.2]

/-- **C89 (comparison with a loop).** The results of `transform_reduce`, with any policy, and of the plain loop over the elements
differ by at most twice the bound. -/
theorem transformReduce_float_loop (hf : StandardFloat f) (h : Roundoff f rnd u) {R : REnv α ℚ ℚ} {mem : List α} (hr1 : R.rB = fadd rnd)
    (hr2 : R.rT = fadd rnd) (hr3 : R.cvt = id) (ok : InputsOk R mem) (run : RunOk R.e R.n)
    (hT : HReduce (fadd rnd) R.hredT) (hB : HReduce (fadd rnd) R.hredB) (g : List α → ℚ) (hg : LaneWise R.trans g) (init : ℚ)
    (hx : ∀ x ∈ init :: transformed R g mem, FloatValue f x)
    (hm : (1 + u) ^ R.n * absSum (init :: transformed R g mem) ≤ f.max) :
    ∃ v, TransformReduce.transformReduce R mem init = .ok v ∧
      |v - (transformed R g mem).foldl (fun s x => rnd (s + x)) init| ≤ 2 * (((1 + u) ^ R.n - 1) * absSum (init :: transformed R g mem)) := by
  obtain ⟨v, h1, -, h2⟩ := transformReduce_float_error hf h hr1 hr2 hr3 ok run hT hB g hg init hx hm
  refine ⟨v, h1, ?_⟩
  have hl : (init :: transformed R g mem).length - 1 = R.n := by simp [transformed]
  have h3 := (gsum_float_error hf h (Simd.foldl_gsum (fadd rnd) init (transformed R g mem)) hx (by rw [hl]; exact hm)).2
  rw [hl, List.sum_cons] at h3
  set w := (transformed R g mem).foldl (fadd rnd) init with hw
  have e : (transformed R g mem).foldl (fun s x => rnd (s + x)) init = w := rfl
  rw [e]
  have e1 : v - w = (v - (init + (transformed R g mem).sum)) - (w - (init + (transformed R g mem).sum)) := by ring
  rw [e1]
  refine (abs_sub _ _).trans ?_
  linarith

/-! ### examples -/

open Classical in
/-- All values of the format. -/
private noncomputable def floatValues (f : FloatTy) : Finset ℚ :=
  (Finset.Icc (-(2 ^ f.digits : ℤ)) (2 ^ f.digits) ×ˢ Finset.Icc (3 - f.emax - f.digits : ℤ) (f.emax - f.digits)).image
    (fun p => (p.1 : ℚ) * 2 ^ p.2) |>.filter (FloatValue f)

open Classical in
private theorem mem_floatValues (f : FloatTy) (q : ℚ) : q ∈ floatValues f ↔ FloatValue f q := by
  unfold floatValues
  rw [Finset.mem_filter]
  refine ⟨fun h => h.2, fun h => ⟨?_, h⟩⟩
  obtain ⟨m, e, h1, h2, h3, rfl⟩ := h
  rw [Finset.mem_image]
  refine ⟨(m, e), ?_, rfl⟩
  rw [Finset.mem_product, Finset.mem_Icc, Finset.mem_Icc]
  have := abs_lt.1 h1
  exact ⟨⟨by omega, by omega⟩, h2, h3⟩

/-- The values of the format that are nearest to `q`. -/
private noncomputable def nearestValues (f : FloatTy) (q : ℚ) : Finset ℚ :=
  (floatValues f).filter fun x => ∀ y ∈ floatValues f, |x - q| ≤ |y - q|

private theorem nearestValues_nonempty (hf : StandardFloat f) (q : ℚ) : (nearestValues f q).Nonempty := by
  have h0 : (floatValues f).Nonempty :=
    ⟨0, (mem_floatValues f 0).2 ⟨0, 3 - f.emax - f.digits, by simp, le_refl _, by have := hf.2.2; omega, by simp⟩⟩
  obtain ⟨x, hx, hmin⟩ := Finset.exists_min_image (floatValues f) (fun x => |x - q|) h0
  exact ⟨x, Finset.mem_filter.2 ⟨hx, hmin⟩⟩

/-- Rounding to nearest, ties toward plus infinity. -/
private noncomputable def nearest (f : FloatTy) (hf : StandardFloat f) (q : ℚ) : ℚ :=
  (nearestValues f q).max' (nearestValues_nonempty hf q)

private theorem nearest_rounds (hf : StandardFloat f) : RoundsToNearest f (nearest f hf) := by
  have hm (q : ℚ) := Finset.mem_filter.1 (Finset.max'_mem _ (nearestValues_nonempty hf q))
  have hn (q x : ℚ) (hx : FloatValue f x) : |nearest f hf q - q| ≤ |x - q| := (hm q).2 x ((mem_floatValues f x).2 hx)
  have hv (q : ℚ) : FloatValue f (nearest f hf q) := (mem_floatValues f _).1 (hm q).1
  refine ⟨⟨fun q hq => ?_, fun p q hpq => ?_, hv⟩, hn⟩
  · have := hn q q hq
    rw [sub_self, abs_zero, abs_nonpos_iff, sub_eq_zero] at this
    exact this
  · by_contra hc
    rw [not_le] at hc
    have h1 := hn p _ (hv q)
    have h2 : |nearest f hf q - q| < |nearest f hf p - q| := by
      by_contra h
      rw [not_lt] at h
      have : nearest f hf p ∈ nearestValues f q :=
        Finset.mem_filter.2 ⟨(hm p).1, fun y hy => h.trans ((hm q).2 y hy)⟩
      exact absurd (Finset.le_max' _ _ this) (not_le.2 hc)
    rcases abs_cases (nearest f hf p - p) with h3 | h3 <;> rcases abs_cases (nearest f hf q - p) with h4 | h4 <;>
      rcases abs_cases (nearest f hf q - q) with h5 | h5 <;> rcases abs_cases (nearest f hf p - q) with h6 | h6 <;> linarith

/-- Every format has a rounding to nearest. -/
theorem exists_nearest (hf : StandardFloat f) : ∃ rnd, Roundoff f rnd (2 ^ (-(f.digits : ℤ))) :=
  ⟨nearest f hf, .inl ⟨nearest_rounds hf, rfl⟩⟩

private theorem float_standard : StandardFloat .float := by unfold StandardFloat; decide

private def floatEnv (pol : List PolicyOption) : Env := { exampleEnv with pol := ⟨pol⟩ }

/-- Horizontal reduction from left to right. -/
private def hredLeft (op : ℚ → ℚ → ℚ) (v : List ℚ) : ℚ := v.tail.foldl op (v.headD 0)

private theorem hredLeft_ok (op : ℚ → ℚ → ℚ) : HReduce op (hredLeft op) := by
  intro v hv
  cases v with
  | nil => exact absurd rfl hv
  | cons x xs => exact Simd.foldl_gsum op x xs

private theorem floatEnv_wf (pol : List PolicyOption) (h : (⟨pol⟩ : Policy).Reachable) : (floatEnv pol).WF :=
  libstdcxx_wf _ (show 0 < 4 by decide) ⟨2, rfl⟩ rfl (show 4 ∣ 0x1004 by decide) h (show stdBitCeil (4 * 4) ≤ 4000 by decide)

private theorem small_value (n : ℕ) (h : n < 2 ^ 24) : FloatValue .float n :=
  ⟨n, 0, by rw [abs_of_nonneg (by positivity)]; exact_mod_cast h, by decide, by decide, by simp⟩

-- the sum of 11 floats with `prefer_aligned`, in any rounding mode
example (rnd : ℚ → ℚ) (u : ℚ) (h : Roundoff .float rnd u) :
    ∃ v, TransformReduce.reduceInit (floatEnv [.preferAligned]) 1 11 (fadd rnd) (fadd rnd) id (hredLeft (fadd rnd)) (hredLeft (fadd rnd))
      ((List.range 23).map Nat.cast) 100 = .ok v ∧ FloatValue .float v ∧ |v - 166| ≤ ((1 + u) ^ 11 - 1) * 166 := by
  have wf := floatEnv_wf [.preferAligned] ⟨[.preferAligned], by decide⟩
  have run : RunOk (floatEnv [.preferAligned]) 11 := by
    refine ⟨wf, rfl, rfl, (show 11 * 4 < 2 ^ 64 by decide), ?_, ?_, by decide⟩
    · rw [reaches_iff wf]; decide
    · rw [ends_iff wf]; decide
  have e : (((List.range 23).map (Nat.cast : ℕ → ℚ)).drop 1).take 11 = [1, 2, 3, 4, 5, 6, 7, 8, 9, 10, 11] := by
    simp [List.range, List.range.loop]
  have e1 : absSum [1, 2, 3, 4, 5, 6, 7, 8, 9, 10, 11] = 66 := by norm_num [absSum]
  have e2 : ([1, 2, 3, 4, 5, 6, 7, 8, 9, 10, 11] : List ℚ).sum = 66 := by norm_num
  have hu : u ≤ 1 := by
    rcases h with ⟨-, rfl⟩ | ⟨-, rfl⟩ <;> norm_num [FloatTy.float]
  have := reduce_float_error float_standard h run (base := 1) (mem := (List.range 23).map Nat.cast) (by simp) (hredLeft (fadd rnd))
    (hredLeft_ok _) 100 (by exact_mod_cast small_value 100 (by norm_num)) (by
      intro x hx
      obtain ⟨i, hi, rfl⟩ := List.mem_map.1 hx
      exact small_value i (by have := List.mem_range.1 hi; omega)) (by
      rw [e, e1]
      have h1 : (1 + u) ^ 11 ≤ 2 ^ 11 := pow_le_pow_left₀ (by have := nonneg h; linarith) (by linarith) 11
      have h2 : (2 : ℚ) ^ 11 * 166 ≤ FloatTy.float.max := by norm_num [FloatTy.max, FloatTy.float]
      rw [show |(100 : ℚ)| = 100 by norm_num]
      linarith)
  rw [e, e1, e2, show |(100 : ℚ)| = 100 by norm_num] at this
  norm_num at this ⊢
  exact this

-- an inner product of 4 floats
example (rnd : ℚ → ℚ) (u : ℚ) (h : Roundoff .float rnd u) :
    ∃ v, TransformReduce.innerProduct (floatEnv []) 0 4 4 (fadd rnd) (fmul rnd) (hredLeft (fadd rnd)) ((List.range 8).map Nat.cast) 2 =
      .ok v ∧ FloatValue .float v ∧
      |v - 40| ≤ ((1 + u) ^ 4 - 1) * 2 + ((1 + u) ^ 5 - 1) * 38 + (1 + u) ^ 4 * 4 * denormMin .float := by
  have wf := floatEnv_wf [] ⟨[], by decide⟩
  have run : RunOk (floatEnv []) 4 := by
    refine ⟨wf, rfl, rfl, (show 4 * 4 < 2 ^ 64 by decide), ?_, ?_, by decide⟩
    · rw [reaches_iff wf]; decide
    · rw [ends_iff wf]; decide
  have e1 : absSum [0, 5, 12, 21] = 38 := by norm_num [absSum]
  have hu : u ≤ 1 := by
    rcases h with ⟨-, rfl⟩ | ⟨-, rfl⟩ <;> norm_num [FloatTy.float]
  have h0 := nonneg h
  have := innerProduct_float_error float_standard h run (base1 := 0) (base2 := 4) (mem := (List.range 8).map Nat.cast) (by simp) (by simp)
    (hredLeft (fadd rnd)) (hredLeft_ok _) 2 (by exact_mod_cast small_value 2 (by norm_num)) [0, 5, 12, 21]
    (by norm_num [List.range, List.range.loop]) (by
      rw [e1]
      have h1 : (1 + u) ^ 4 ≤ 2 ^ 4 := pow_le_pow_left₀ (by linarith) (by linarith) 4
      have h2 : denormMin .float ≤ 1 := by norm_num [denormMin, FloatTy.float]
      have h3 : (0 : ℚ) ≤ denormMin .float := (zpow_pos (by norm_num) _).le
      have h4 : (2 : ℚ) ^ 4 * 82 ≤ FloatTy.float.max := by norm_num [FloatTy.max, FloatTy.float]
      rw [show |(2 : ℚ)| = 2 by norm_num]
      refine le_trans (mul_le_mul h1 ?_ (by positivity) (by norm_num)) h4
      push_cast
      linarith)
  rw [e1, show |(2 : ℚ)| = 2 by norm_num] at this
  norm_num at this ⊢
  exact this

/-- The sum of two floats and `init`. -/
private def twoR (op : ℚ → ℚ → ℚ) : REnv ℚ ℚ ℚ :=
  ⟨floatEnv [], [0], 2, TransformReduce.identityOp, op, op, id, hredLeft op, hredLeft op⟩

private theorem twoR_eq (op : ℚ → ℚ → ℚ) (i a b : ℚ) :
    TransformReduce.transformReduce (twoR op) [a, b] i = .ok (op i (op a b)) := by
  have h1 {σ : Type} (run : Nat → Nat → σ → Outcome σ) (i : σ) : ForEach.runPrologue (floatEnv []) 2 run 0 i = .ok (0, 2, i) := by
    have e1 : ForEach.useAligned (floatEnv []) = false := by decide +kernel
    have e2 : ForEach.maybeAnyway (floatEnv []) = false := by decide +kernel
    simp [ForEach.runPrologue, e1, e2]
  have h2 : ForEach.subPtr (floatEnv []) 2 4 = .ok (-2) := by rfl
  have h7 : stdBitCeil 4 = 4 := by decide +kernel
  have h8 : Nat.log2 2 = 1 := by decide +kernel
  have h9 : ForEach.useAligned (floatEnv []) = false := by decide +kernel
  unfold TransformReduce.transformReduce
  simp only [show (twoR op).n = 2 from rfl, show (twoR op).e = floatEnv [] from rfl,
    show (floatEnv []).pol.assumeMatchingSize = false from rfl, show (floatEnv []).constEval = false from rfl,
    show (floatEnv []).size = 4 from rfl, h1, h9, h7, h8, h2, Nat.cast_ofNat, Outcome.bind_ok]
  rfl

/-- **C89 (false without the error bound).** In every rounding mode there are floats whose sum `reduce` computes exactly and the loop
does not. -/
theorem reduce_float_differs (rnd : ℚ → ℚ) (h : RoundsTo .float rnd) :
    ∃ (e : Env) (mem : List ℚ) (init : ℚ) (hred : List ℚ → ℚ), RunOk e mem.length ∧ HReduce (fadd rnd) hred ∧
      (∀ x ∈ init :: mem, FloatValue .float x) ∧
      TransformReduce.reduceInit e 0 mem.length (fadd rnd) (fadd rnd) id hred hred mem init = .ok (init + mem.sum) ∧
      mem.foldl (fun s x => rnd (s + x)) init ≠ init + mem.sum := by
  have wf := floatEnv_wf [] ⟨[], by decide⟩
  have hB : FloatValue .float (2 ^ 25) := ⟨1, 25, by decide, by decide, by decide, by norm_num⟩
  have hB4 : FloatValue .float (2 ^ 25 + 4) := ⟨2 ^ 23 + 1, 2, by decide, by decide, by decide, by norm_num⟩
  have h1 : FloatValue .float 1 := ⟨1, 0, by decide, by decide, by decide, by norm_num⟩
  have h0 : FloatValue .float 0 := ⟨0, 0, by decide, by decide, by decide, by norm_num⟩
  have h4 : FloatValue .float 4 := ⟨4, 0, by decide, by decide, by decide, by norm_num⟩
  refine ⟨floatEnv [], [2 ^ 25, -(2 ^ 25)], 1, hredLeft (fadd rnd), ?_, hredLeft_ok _, ?_, ?_, ?_⟩
  · refine ⟨wf, rfl, rfl, (show 2 * 4 < 2 ^ 64 by decide), ?_, ?_, by decide⟩
    · rw [reaches_iff wf]; decide
    · rw [ends_iff wf]; decide
  · intro x hx
    simp only [List.mem_cons, List.not_mem_nil, or_false] at hx
    rcases hx with rfl | rfl | rfl
    · exact h1
    · exact hB
    · exact hB.neg
  · have := twoR_eq (fadd rnd) 1 (2 ^ 25) (-(2 ^ 25))
    have e : fadd rnd 1 (fadd rnd (2 ^ 25) (-(2 ^ 25))) = 1 + [(2 ^ 25 : ℚ), -(2 ^ 25)].sum := by
      unfold fadd
      rw [add_neg_cancel, h.1 0 h0]
      simp [h.1 1 h1]
    rw [e] at this
    exact this
  · have hl := h.2.1 (2 ^ 25) (1 + 2 ^ 25) (by norm_num)
    have hh := h.2.1 (1 + 2 ^ 25) (2 ^ 25 + 4) (by norm_num)
    rw [h.1 _ hB] at hl
    rw [h.1 _ hB4] at hh
    simp only [List.foldl_cons, List.foldl_nil, List.sum_cons, List.sum_nil, add_zero, add_neg_cancel]
    have hcase : rnd (1 + 2 ^ 25) = 2 ^ 25 ∨ rnd (1 + 2 ^ 25) = 2 ^ 25 + 4 := by
      obtain ⟨m, e, hm, he1, he2, hx⟩ := h.2.2 (1 + 2 ^ 25)
      rw [hx] at hl hh ⊢
      by_cases he : e ≤ 1
      · exfalso
        have p1 : (2 : ℚ) ^ e ≤ 2 := by
          have := zpow_le_zpow_right₀ (by norm_num : (1 : ℚ) ≤ 2) he
          simpa using this
        have p2 : (0 : ℚ) < 2 ^ e := zpow_pos (by norm_num) _
        have p3 : (m : ℚ) + 1 ≤ 2 ^ 24 := by
          have := (abs_lt.1 hm).2
          have h5 : m + 1 ≤ 2 ^ 24 := this
          exact_mod_cast h5
        have p4 : (m : ℚ) * 2 ^ e ≤ (2 ^ 24 - 1) * 2 ^ e := mul_le_mul_of_nonneg_right (by linarith) p2.le
        have p5 : ((2 : ℚ) ^ 24 - 1) * 2 ^ e ≤ (2 ^ 24 - 1) * 2 := mul_le_mul_of_nonneg_left p1 (by norm_num)
        norm_num at p4 p5 hl
        linarith
      · obtain ⟨k, rfl⟩ : ∃ k : ℕ, e = 2 + k := ⟨(e - 2).toNat, by omega⟩
        have e1 : (m : ℚ) * 2 ^ ((2 : ℤ) + k) = ((m * 2 ^ k * 4 : ℤ) : ℚ) := by
          rw [zpow_add₀ (by norm_num), zpow_natCast]; push_cast; norm_num; ring
        rw [e1] at hl hh ⊢
        have hl' : (2 ^ 25 : ℤ) ≤ m * 2 ^ k * 4 := by exact_mod_cast hl
        have hh' : m * 2 ^ k * 4 ≤ (2 ^ 25 + 4 : ℤ) := by exact_mod_cast hh
        generalize m * 2 ^ k = z at *
        rcases (by omega : z * 4 = 2 ^ 25 ∨ z * 4 = 2 ^ 25 + 4) with hz | hz
        · left; rw [hz]; norm_num
        · right; rw [hz]; norm_num
    rcases hcase with hc | hc
    · rw [hc, add_neg_cancel, h.1 0 h0]; norm_num
    · rw [hc, show (2 : ℚ) ^ 25 + 4 + -2 ^ 25 = 4 by norm_num, h.1 4 h4]; norm_num

/-! ## The theorems applied to concrete data -/

private theorem threeTwoFour : FloatValue .float 3 ∧ FloatValue .float 2 ∧ FloatValue .float 4 :=
  ⟨by exact_mod_cast small_value 3 (by norm_num), by exact_mod_cast small_value 2 (by norm_num), by exact_mod_cast small_value 4 (by norm_num)⟩

private theorem fewValues : ∀ x ∈ [(3 : ℚ), 2, 4], FloatValue .float x := by
  intro x hx
  simp only [List.mem_cons, List.not_mem_nil, or_false] at hx
  rcases hx with rfl | rfl | rfl
  exacts [threeTwoFour.1, threeTwoFour.2.1, threeTwoFour.2.2]

private theorem fewSmall {rnd : ℚ → ℚ} {u : ℚ} (h : Roundoff .float rnd u) : (1 + u) ^ 2 * absSum [3, 2, 4] ≤ FloatTy.float.max := by
  have h0 := nonneg h
  have hu : u ≤ 1 := by rcases h with ⟨-, rfl⟩ | ⟨-, rfl⟩ <;> norm_num [FloatTy.float]
  have h1 : (1 + u) ^ 2 ≤ 2 ^ 2 := pow_le_pow_left₀ (by linarith) (by linarith) 2
  have h2 : (2 : ℚ) ^ 2 * 9 ≤ FloatTy.float.max := by norm_num [FloatTy.max, FloatTy.float]
  have e : absSum [3, 2, 4] = 9 := by norm_num [absSum]
  rw [e]
  linarith

example := exists_nearest float_standard
example := fun rnd u (h : Roundoff .float rnd u) => fadd_error float_standard h threeTwoFour.1 threeTwoFour.2.1
  (show |(3 : ℚ) + 2| ≤ FloatTy.float.max by norm_num [FloatTy.max, FloatTy.float])
example := fun rnd u (h : Roundoff .float rnd u) => fmul_error (a := 3) (b := 2) float_standard h
  (show |(3 : ℚ) * 2| ≤ FloatTy.float.max by norm_num [FloatTy.max, FloatTy.float])
example := fun rnd u (h : Roundoff .float rnd u) => gsum_float_error float_standard h (GSum.node (GSum.node (GSum.single 3) (GSum.single 2)) (GSum.single 4))
  fewValues (fewSmall h)
example := fun rnd u (h : Roundoff .float rnd u) => hreduce_float_error float_standard h
  (vop := fun l r => .ok (List.zipWith (fadd rnd) l r)) (fun _ _ _ => rfl) [3, 2, 4] (by simp) (by decide) fewValues (fewSmall h)

private theorem oneRange (d : ℚ) : LaneWise (TransformReduce.identityOp : VecOp ℚ ℚ) (fun xs => xs.headD d) := by
  intro w args hne hl
  cases args with
  | nil => exact absurd rfl hne
  | cons a as =>
    have ha := hl a (by simp)
    simp only [TransformReduce.identityOp, List.headD_cons]
    apply List.ext_getElem?
    intro i
    by_cases hi : i < w
    · have : i < a.length := by omega
      simp [hi, List.getElem?_eq_getElem this]
    · rw [List.getElem?_eq_none (by omega), List.getElem?_eq_none (by simp; omega)]

private theorem twoR_run (op : ℚ → ℚ → ℚ) : RunOk (twoR op).e (twoR op).n := by
  have wf := floatEnv_wf [] ⟨[], by decide⟩
  refine ⟨wf, rfl, rfl, (show 2 * 4 < 2 ^ 64 by decide), ?_, ?_, fun h => absurd h (by decide : ¬ (floatEnv []).pol.assumeMatchingSize = true)⟩
  · show ReachesAlignment (floatEnv []) 2
    rw [reaches_iff wf]; decide
  · show ¬ EndsAtFirstAligned (floatEnv []) 2
    rw [ends_iff wf]; decide

example := fun rnd u (h : Roundoff .float rnd u) => transformReduce_float_error (R := twoR (fadd rnd)) (mem := [2, 4]) float_standard h
  rfl rfl rfl ⟨by simp [twoR], by simp [twoR]⟩ (twoR_run _) (hredLeft_ok _) (hredLeft_ok _) (fun l => l.headD 0) (oneRange _) 3
  fewValues (fewSmall h)
example := fun rnd u (h : Roundoff .float rnd u) => transformReduce_float_loop (R := twoR (fadd rnd)) (mem := [2, 4]) float_standard h
  rfl rfl rfl ⟨by simp [twoR], by simp [twoR]⟩ (twoR_run _) (hredLeft_ok _) (hredLeft_ok _) (fun l => l.headD 0) (oneRange _) 3
  fewValues (fewSmall h)
example : ∃ rnd, RoundsTo .float rnd := by
  obtain ⟨rnd, h⟩ := exists_nearest float_standard
  rcases h with h | h
  exacts [⟨rnd, h.1.1⟩, ⟨rnd, h.1⟩]

end Vir
