import Verif.Props.TransformReduce

/-!
# C18: `vir::reduce` and the inner product
-/

namespace Vir
open Spec ForEach TransformReduce

variable {α τ : Type}

private theorem identityOp_laneWise (d : α) : LaneWise (identityOp : VecOp α α) (fun xs => xs.headD d) := by
  intro w args hne hl
  cases args with
  | nil => exact absurd rfl hne
  | cons a as =>
    have ha := hl a (by simp)
    simp only [identityOp, List.headD_cons]
    apply List.ext_getElem?
    intro i
    by_cases hi : i < w
    · have : i < a.length := by omega
      simp [hi, List.getElem?_eq_getElem this]
    · rw [List.getElem?_eq_none (by omega), List.getElem?_eq_none (by simp; omega)]

private theorem transformed_one (R : REnv α α τ) {mem : List α} (d : α) (a : Nat) (hi : R.ins = [a])
    (h : a + R.n ≤ mem.length) : transformed R (fun xs => xs.headD d) mem = slice mem a R.n := by
  apply List.ext_getElem?
  intro i
  unfold transformed
  rw [slice_get, hi]
  by_cases hn : i < R.n
  · have : a + i < mem.length := by omega
    simp [hn, List.getElem?_eq_getElem this]
  · simp [hn]

private theorem lanewiseOp_laneWise (f : α → α → α) (d : α) :
    LaneWise (lanewiseOp f) (fun xs => xs.tail.foldl f (xs.headD d)) := by
  intro w args hne hl
  cases args with
  | nil => exact absurd rfl hne
  | cons a as =>
    have key : ∀ (as : List (List α)) (a : List α), a.length = w → (∀ b ∈ as, b.length = w) → ∀ i : Nat,
        (as.foldl (List.zipWith f) a)[i]? = a[i]?.map fun x => (as.filterMap (·[i]?)).foldl f x := by
      intro as
      induction as with
      | nil => intro a _ _ i; simp
      | cons b bs ih =>
        intro a h hb i
        have hbl := hb b (by simp)
        rw [List.foldl_cons, ih _ (by simp [h, hbl]) (fun c hc => hb c (by simp [hc]))]
        by_cases hi : i < w
        · have h1 : i < a.length := by omega
          have h2 : i < b.length := by omega
          simp [List.getElem?_zipWith, List.getElem?_eq_getElem h1, List.getElem?_eq_getElem h2]
        · have h1 : a[i]? = none := List.getElem?_eq_none (by omega)
          simp [List.getElem?_zipWith, h1]
    have ha := hl a (by simp)
    apply List.ext_getElem?
    intro i
    simp only [lanewiseOp, List.headD_cons, List.tail_cons]
    rw [key as a ha (fun b hb => hl b (by simp [hb]))]
    by_cases hi : i < w
    · have h1 : i < a.length := by omega
      simp [hi, List.getElem?_eq_getElem h1]
    · have h1 : a[i]? = none := List.getElem?_eq_none (by omega)
      simp [h1, hi]

private theorem transformed_two (R : REnv α α τ) {mem : List α} (f : α → α → α) (d : α) (a b : Nat)
    (hi : R.ins = [a, b]) (h1 : a + R.n ≤ mem.length) (h2 : b + R.n ≤ mem.length) :
    transformed R (fun xs => xs.tail.foldl f (xs.headD d)) mem =
      List.zipWith f (slice mem a R.n) (slice mem b R.n) := by
  apply List.ext_getElem?
  intro i
  unfold transformed
  rw [List.getElem?_zipWith, slice_get, slice_get, hi]
  by_cases hn : i < R.n
  · have ha : a + i < mem.length := by omega
    have hb : b + i < mem.length := by omega
    simp [hn, List.getElem?_eq_getElem ha, List.getElem?_eq_getElem hb]
  · simp [hn]

/-- The conditions under which `transform_reduce` and `reduce` are defined at run time (C16). -/
structure Spec.RunOk (e : Env) (n : Nat) : Prop where
  wf : e.WF
  run : e.constEval = false
  ptr : e.strictPtr = false
  fits : e.Fits n
  reaches : ReachesAlignment e n
  notWhole : ¬ EndsAtFirstAligned e n
  matching : e.pol.assumeMatchingSize = true → e.size ∣ n

/-- **C18.** `reduce(pol, rng, init, op)` is a generalized sum of `init` and the elements. -/
theorem reduce_is_gsum {e : Env} {base n : Nat} {mem : List τ} (ok : RunOk e n) (hle : base + n ≤ mem.length)
    (op : τ → τ → τ) (hred : List τ → τ) (hh : HReduce op hred) (init : τ) :
    ∃ v, reduceInit e base n op op id hred hred mem init = .ok v ∧ GSum op (init :: slice mem base n) v := by
  have := transformReduce_is_gsum (R := ⟨e, [base], n, identityOp, op, op, id, hred, hred⟩) (mem := mem) rfl rfl
    ⟨by simp, by simpa using hle⟩ ok.wf ok.run ok.ptr ok.fits ok.reaches ok.notWhole ok.matching hh hh _
    (identityOp_laneWise init) init
  rw [transformed_one _ init base rfl hle] at this
  exact this

/-- **C18.** `reduce(pol, rng, init, op)` is the left fold for an associative and commutative operation. -/
theorem reduce_eq_fold {e : Env} {base n : Nat} {mem : List τ} (ok : RunOk e n) (hle : base + n ≤ mem.length)
    (op : τ → τ → τ) (hassoc : ∀ a b c, op (op a b) c = op a (op b c)) (hcomm : ∀ a b, op a b = op b a)
    (hred : List τ → τ) (hh : HReduce op hred) (init : τ) :
    reduceInit e base n op op id hred hred mem init = .ok ((slice mem base n).foldl op init) := by
  obtain ⟨v, h1, h2⟩ := reduce_is_gsum ok hle op hred hh init
  rw [h1, h2.eq_foldl hassoc hcomm]

/-- **C18.** `reduce(pol, rng)` is a generalized sum of zero and the elements. -/
theorem reduceDefault_is_gsum {e : Env} {base n : Nat} {mem : List τ} (ok : RunOk e n) (hle : base + n ≤ mem.length)
    (zero : τ) (add : τ → τ → τ) (hred : List τ → τ) (hh : HReduce add hred) :
    ∃ v, reduceDefault e base n zero add hred mem = .ok v ∧ GSum add (zero :: slice mem base n) v :=
  reduce_is_gsum ok hle add hred hh zero

/-- **C18.** Without callables `transform_reduce` is the inner product: a generalized sum of `init` and the
products of corresponding elements. -/
theorem innerProduct_is_gsum {e : Env} {base1 base2 n : Nat} {mem : List τ} (ok : RunOk e n)
    (h1 : base1 + n ≤ mem.length) (h2 : base2 + n ≤ mem.length) (add mul : τ → τ → τ) (hred : List τ → τ)
    (hh : HReduce add hred) (init : τ) :
    ∃ v, innerProduct e base1 base2 n add mul hred mem init = .ok v ∧
      GSum add (init :: List.zipWith mul (slice mem base1 n) (slice mem base2 n)) v := by
  have := transformReduce_is_gsum (R := ⟨e, [base1, base2], n, lanewiseOp mul, add, add, id, hred, hred⟩) (mem := mem)
    rfl rfl ⟨by simp, by simp [h1, h2]⟩ ok.wf ok.run ok.ptr ok.fits ok.reaches ok.notWhole ok.matching hh hh _
    (lanewiseOp_laneWise mul init) init
  rw [transformed_two _ mul init base1 base2 rfl h1 h2] at this
  exact this

/-- **C18.** The inner product, for an associative and commutative addition. -/
theorem innerProduct_eq_fold {e : Env} {base1 base2 n : Nat} {mem : List τ} (ok : RunOk e n)
    (h1 : base1 + n ≤ mem.length) (h2 : base2 + n ≤ mem.length) (add mul : τ → τ → τ)
    (hassoc : ∀ a b c, add (add a b) c = add a (add b c)) (hcomm : ∀ a b, add a b = add b a)
    (hred : List τ → τ) (hh : HReduce add hred) (init : τ) :
    innerProduct e base1 base2 n add mul hred mem init =
      .ok ((List.zipWith mul (slice mem base1 n) (slice mem base2 n)).foldl add init) := by
  obtain ⟨v, e1, e2⟩ := innerProduct_is_gsum ok h1 h2 add mul hred hh init
  rw [e1, e2.eq_foldl hassoc hcomm]

/-! ### the theorems are about something -/

example : RunOk { exampleEnv with pol := ⟨[.preferAligned]⟩ } 11 := by
  have wf := exampleR_wf [.preferAligned] [0] 11 ⟨[.preferAligned], by decide⟩
  refine ⟨wf, rfl, rfl, show 11 * 4 < 2 ^ 64 by decide, ?_, ?_, by decide⟩
  · exact (reaches_iff wf).2 (by decide)
  · exact fun h => absurd ((ends_iff wf).1 h) (by decide)
example : innerProduct { exampleEnv with pol := ⟨[.preferAligned]⟩ } 0 5 11 (· + ·) (· * ·) List.sum (List.range 16) 7 =
    .ok 667 := by decide +kernel
example : (List.zipWith (· * ·) (slice (List.range 16) 0 11) (slice (List.range 16) 5 11)).foldl (· + ·) 7 = 667 := by
  decide

/-! ## The theorems applied to concrete data -/

private theorem exRun : RunOk { exampleEnv with pol := ⟨[.preferAligned]⟩ } 11 := by
  have wf := exampleR_wf [.preferAligned] [0] 11 ⟨[.preferAligned], by decide⟩
  refine ⟨wf, rfl, rfl, show 11 * 4 < 2 ^ 64 by decide, ?_, ?_, by decide⟩
  · exact (reaches_iff wf).2 (by decide)
  · exact fun h => absurd ((ends_iff wf).1 h) (by decide)

example := reduce_is_gsum (base := 5) (mem := List.range 16) exRun (by decide) (· + ·) List.sum hreduce_sum 7
example := reduce_eq_fold (base := 5) (mem := List.range 16) exRun (by decide) (· + ·) Nat.add_assoc Nat.add_comm List.sum hreduce_sum 7
example := reduceDefault_is_gsum (base := 5) (mem := List.range 16) exRun (by decide) 0 (· + ·) List.sum hreduce_sum
example := innerProduct_is_gsum (base1 := 0) (base2 := 5) (mem := List.range 16) exRun (by decide) (by decide) (· + ·) (· * ·) List.sum hreduce_sum 7
example := innerProduct_eq_fold (base1 := 0) (base2 := 5) (mem := List.range 16) exRun (by decide) (by decide) (· + ·) (· * ·) Nat.add_assoc Nat.add_comm
  List.sum hreduce_sum 7

end Vir
