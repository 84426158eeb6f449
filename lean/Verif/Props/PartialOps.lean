import Verif.Lemmas.PartialOps
import Verif.Lemmas.ForEachTrace
import Verif.Lemmas.ArrayAlgorithms
import Verif.Props.SimdExpr
import Verif.Props.IntReduce
import Verif.Props.ForEach
import Verif.Props.Transform

/-!
# C74: `for_each` and `transform` with operator expressions

The element-wise value of an expression is `HasValue` (`Verif/Spec/SimdExpr.lean`).
-/

namespace Vir
open Spec ForEach Transform SimdExpr

variable {ty : IntTy} {ex : Expr}

/-- An expression as operation on simds. -/
def exprOp (ty : IntTy) (ex : Expr) : POp Int := fun w args => ex.simd ty w args

theorem exprOp_lanes {m : Nat} (hv : ValidTy ty) (hu : ex.Uses m) :
    OnEveryLane m ty.Has (exprOp ty ex) fun xs v => HasValue ty xs ex v where
  value w args hl ha hd := by
    obtain ⟨r, h1, h2, _, h3⟩ := simdExpr_spec (w := w) (args := args) hv ha (by rw [hl]; exact hu) hd
    exact ⟨r, h1, h2, h3⟩
  undef w args hl ha i hi hd := simdExpr_ub (args := args) hv ha (by rw [hl]; exact hu) hi hd

private theorem transformP_cases {t : TEnv} {mem : List Int} (ok : RangesOk t mem) (wf : t.e.WF) (hce : t.e.constEval = false)
    (hpt : t.e.strictPtr = false) (hf : t.e.Fits t.n) (hr : ReachesAlignment t.e t.n)
    (ha : t.e.pol.assumeMatchingSize = true → t.e.size ∣ t.n) {ord : Nat → List Nat} (hord : ∀ k, (ord k).Perm (List.range k))
    (hv : ValidTy ty) (hm : ∀ i < t.n, ∀ x ∈ elementsAt t mem i, ty.Has x) (hu : ex.Uses t.ins.length) :
    (∃ ys, transformP t ord (exprOp ty ex) mem = .ok ((t.n : Int), writeAt mem t.out ys) ∧ ys.length = t.n ∧
      ∀ (i : Nat) (v : Int), ys[i]? = some v → HasValue ty (elementsAt t mem i) ex v) ∨
    (∃ j, j < t.n ∧ (∀ v, ¬ HasValue ty (elementsAt t mem j) ex v) ∧ ∃ u, transformP t ord (exprOp ty ex) mem = .ub u) := by
  have hp := (reaches_iff wf).1 hr
  have htr := transformG_trace wf hce hf hp (by simp [hpt]) ha (chunksP t ord (exprOp ty ex)) mem
  have hspan := Transform.groupsOf_span hp
  have hrun := runGroups_chunksP ok hm (exprOp_lanes hv hu) hord (Transform.groupsOf t.e t.n) [] (groupsOf_aligned wf hp) (by simp [hspan])
    (by intro i v h; simp at h)
  simp only [List.length_nil, hspan, writeAt_nil, Nat.zero_add] at hrun
  unfold transformP
  rw [htr]
  rcases hrun with ⟨zs, h1, h2, h3⟩ | ⟨j, h1, h2, u, h3⟩
  · exact Or.inl ⟨zs, by simp only [h1, Outcome.bind_ok], h2, fun i v h => by simpa using h3 i v h⟩
  · exact Or.inr ⟨j, h1, h2, u, by simp only [h3, Outcome.bind_ub]⟩

/-- **C74.** `transform` with an expression: if the expression has a value for the elements with index `i`, for all `i`, the call is
defined, returns the end of the output range, makes element `i` of the output that value and changes nothing else. The order `ord` in
which the compiler evaluates the invocations of one unrolled iteration does not matter, nor do width, address and policy. -/
theorem transform_expr {t : TEnv} {mem : List Int} (ok : RangesOk t mem) (wf : t.e.WF) (hce : t.e.constEval = false)
    (hpt : t.e.strictPtr = false) (hf : t.e.Fits t.n) (hr : ReachesAlignment t.e t.n)
    (ha : t.e.pol.assumeMatchingSize = true → t.e.size ∣ t.n) {ord : Nat → List Nat} (hord : ∀ k, (ord k).Perm (List.range k))
    (hv : ValidTy ty) (hm : ∀ i < t.n, ∀ x ∈ elementsAt t mem i, ty.Has x) (hu : ex.Uses t.ins.length)
    (hd : ∀ i < t.n, ∃ v, HasValue ty (elementsAt t mem i) ex v) :
    ∃ ys, transformP t ord (exprOp ty ex) mem = .ok ((t.n : Int), mem.take t.out ++ ys ++ mem.drop (t.out + t.n)) ∧ ys.length = t.n ∧
      ∀ (i : Nat) (v : Int), ys[i]? = some v → HasValue ty (elementsAt t mem i) ex v := by
  rcases transformP_cases ok wf hce hpt hf hr ha hord hv hm hu with ⟨ys, h1, h2, h3⟩ | ⟨j, h1, h2, _⟩
  · exact ⟨ys, by rw [h1, writeAt, h2], h2, h3⟩
  · obtain ⟨v, h⟩ := hd j h1
    exact absurd h (h2 v)

/-- **C74.** If the expression has no value for the elements with some index, the call is undefined. -/
theorem transform_expr_ub {t : TEnv} {mem : List Int} (ok : RangesOk t mem) (wf : t.e.WF) (hce : t.e.constEval = false)
    (hpt : t.e.strictPtr = false) (hf : t.e.Fits t.n) (hr : ReachesAlignment t.e t.n)
    (ha : t.e.pol.assumeMatchingSize = true → t.e.size ∣ t.n) {ord : Nat → List Nat} (hord : ∀ k, (ord k).Perm (List.range k))
    (hv : ValidTy ty) (hm : ∀ i < t.n, ∀ x ∈ elementsAt t mem i, ty.Has x) (hu : ex.Uses t.ins.length)
    {i : Nat} (hi : i < t.n) (hd : ∀ v, ¬ HasValue ty (elementsAt t mem i) ex v) : ∃ u, transformP t ord (exprOp ty ex) mem = .ub u := by
  rcases transformP_cases ok wf hce hpt hf hr ha hord hv hm hu with ⟨ys, h1, h2, h3⟩ | ⟨j, h1, h2, h3⟩
  · exact absurd (h3 i _ (List.getElem?_eq_getElem (by omega))) (hd _)
  · exact h3

private theorem transformP_const_cases {t : TEnv} {mem : List Int} (ok : RangesOk t mem) (hs : 0 < t.e.size) (hce : t.e.constEval = true)
    (hpt : t.e.strictPtr = false) (ha : t.e.pol.assumeMatchingSize = true → t.e.size ∣ t.n) {ord : Nat → List Nat}
    (hord : ∀ k, (ord k).Perm (List.range k)) (hv : ValidTy ty) (hm : ∀ i < t.n, ∀ x ∈ elementsAt t mem i, ty.Has x)
    (hu : ex.Uses t.ins.length) :
    (∃ ys, transformP t ord (exprOp ty ex) mem = .ok ((t.n : Int), mem.take t.out ++ ys ++ mem.drop (t.out + t.n)) ∧ ys.length = t.n ∧
      ∀ (i : Nat) (v : Int), ys[i]? = some v → HasValue ty (elementsAt t mem i) ex v) ∨
    (∃ j, j < t.n ∧ (∀ v, ¬ HasValue ty (elementsAt t mem j) ex v) ∧ ∃ u, transformP t ord (exprOp ty ex) mem = .ub u) := by
  have htr := transformG_const hs hce (by simp [hpt]) ha (chunksP t ord (exprOp ty ex)) mem
  have hspan := constGroupsOf_span t.e t.n
  have hrun := runGroups_chunksP ok hm (exprOp_lanes hv hu) hord (constGroupsOf t.e t.n) []
    (groupsAligned_false (fun g hg => by
      simp only [constGroupsOf, List.mem_append, List.mem_replicate] at hg
      rcases hg with ⟨_, rfl⟩ | ⟨_, rfl⟩ <;> rfl) _) (by simp [hspan]) (by intro i v h; simp at h)
  simp only [List.length_nil, hspan, writeAt_nil, Nat.zero_add] at hrun
  unfold transformP
  rw [htr]
  rcases hrun with ⟨zs, h1, h2, h3⟩ | ⟨j, h1, h2, u, h3⟩
  · exact .inl ⟨zs, by simp only [h1, Outcome.bind_ok, writeAt, h2], h2, fun i v h => by simpa using h3 i v h⟩
  · exact .inr ⟨j, h1, h2, u, by simp only [h3, Outcome.bind_ub]⟩

/-- **C74.** During constant evaluation. -/
theorem transform_expr_const {t : TEnv} {mem : List Int} (ok : RangesOk t mem) (hs : 0 < t.e.size) (hce : t.e.constEval = true)
    (hpt : t.e.strictPtr = false) (ha : t.e.pol.assumeMatchingSize = true → t.e.size ∣ t.n) {ord : Nat → List Nat}
    (hord : ∀ k, (ord k).Perm (List.range k)) (hv : ValidTy ty) (hm : ∀ i < t.n, ∀ x ∈ elementsAt t mem i, ty.Has x)
    (hu : ex.Uses t.ins.length) (hd : ∀ i < t.n, ∃ v, HasValue ty (elementsAt t mem i) ex v) :
    ∃ ys, transformP t ord (exprOp ty ex) mem = .ok ((t.n : Int), mem.take t.out ++ ys ++ mem.drop (t.out + t.n)) ∧ ys.length = t.n ∧
      ∀ (i : Nat) (v : Int), ys[i]? = some v → HasValue ty (elementsAt t mem i) ex v := by
  rcases transformP_const_cases ok hs hce hpt ha hord hv hm hu with h | ⟨j, h1, h2, _⟩
  · exact h
  · obtain ⟨v, h⟩ := hd j h1
    exact absurd h (h2 v)

/-- **C74.** During constant evaluation the call is no constant expression if the expression has no value for the elements with
some index. -/
theorem transform_expr_const_ub {t : TEnv} {mem : List Int} (ok : RangesOk t mem) (hs : 0 < t.e.size) (hce : t.e.constEval = true)
    (hpt : t.e.strictPtr = false) (ha : t.e.pol.assumeMatchingSize = true → t.e.size ∣ t.n) {ord : Nat → List Nat}
    (hord : ∀ k, (ord k).Perm (List.range k)) (hv : ValidTy ty) (hm : ∀ i < t.n, ∀ x ∈ elementsAt t mem i, ty.Has x)
    (hu : ex.Uses t.ins.length) {i : Nat} (hi : i < t.n) (hd : ∀ v, ¬ HasValue ty (elementsAt t mem i) ex v) :
    ∃ u, transformP t ord (exprOp ty ex) mem = .ub u := by
  rcases transformP_const_cases ok hs hce hpt ha hord hv hm hu with ⟨ys, h1, h2, h3⟩ | ⟨j, h1, h2, h3⟩
  · exact absurd (h3 i _ (List.getElem?_eq_getElem (by omega))) (hd _)
  · exact h3

private theorem forEachP_cases {e : Env} (wf : e.WF) (hce : e.constEval = false) (hpt : e.strictPtr = false) (xs : List Int)
    (hf : e.Fits xs.length) (hr : ReachesAlignment e xs.length) (ha : e.pol.assumeMatchingSize = true → e.size ∣ xs.length)
    (hv : ValidTy ty) (hx : LanesOf ty xs) (hu : ex.Uses 1) :
    (∃ ys, forEachP e (exprOp ty ex) xs = .ok ys ∧ AllRelated (fun x v => HasValue ty [x] ex v) xs ys) ∨
    (∃ x ∈ xs, (∀ v, ¬ HasValue ty [x] ex v) ∧ ∃ u, forEachP e (exprOp ty ex) xs = .ub u) := by
  have hp := (reaches_iff wf).1 hr
  have htr := forEachG_trace wf hce hf hp (by simp [hpt]) ha (invokeP e (exprOp ty ex)) xs
  have hspan := Transform.groupsOf_span hp
  have hrun := runGroups_invokeP (e := e) (exprOp_lanes hv hu) (Transform.groupsOf e xs.length) [] xs hx (groupsOf_aligned wf hp) (by omega)
  simp only [List.nil_append, List.length_nil, hspan, ← htr, List.take_length, List.drop_length, List.append_nil] at hrun
  exact hrun

/-- **C74.** `for_each` with a callable that assigns an expression of the element to it: if the expression has a value for all
elements the call is defined and every element is replaced by its value. -/
theorem forEach_expr {e : Env} (wf : e.WF) (hce : e.constEval = false) (hpt : e.strictPtr = false) (xs : List Int)
    (hf : e.Fits xs.length) (hr : ReachesAlignment e xs.length) (ha : e.pol.assumeMatchingSize = true → e.size ∣ xs.length)
    (hv : ValidTy ty) (hx : LanesOf ty xs) (hu : ex.Uses 1) (hd : ∀ x ∈ xs, ∃ v, HasValue ty [x] ex v) :
    ∃ ys, forEachP e (exprOp ty ex) xs = .ok ys ∧ AllRelated (fun x v => HasValue ty [x] ex v) xs ys := by
  rcases forEachP_cases wf hce hpt xs hf hr ha hv hx hu with h | ⟨x, h1, h2, _⟩
  · exact h
  · obtain ⟨v, h⟩ := hd x h1
    exact absurd h (h2 v)

/-- **C74.** If the expression has no value for some element, the call is undefined. -/
theorem forEach_expr_ub {e : Env} (wf : e.WF) (hce : e.constEval = false) (hpt : e.strictPtr = false) (xs : List Int)
    (hf : e.Fits xs.length) (hr : ReachesAlignment e xs.length) (ha : e.pol.assumeMatchingSize = true → e.size ∣ xs.length)
    (hv : ValidTy ty) (hx : LanesOf ty xs) (hu : ex.Uses 1) {x : Int} (hmem : x ∈ xs) (hd : ∀ v, ¬ HasValue ty [x] ex v) :
    ∃ u, forEachP e (exprOp ty ex) xs = .ub u := by
  rcases forEachP_cases wf hce hpt xs hf hr ha hv hx hu with ⟨ys, _, h2, h3⟩ | ⟨x, _, _, h3⟩
  · obtain ⟨i, hi, rfl⟩ := List.mem_iff_getElem.1 hmem
    exact absurd (h3 i _ _ (List.getElem?_eq_getElem hi) (List.getElem?_eq_getElem (by omega))) (hd _)
  · exact h3

/-! ## Sums of expressions -/

/-- An expression as `transform_op` of an aggregation in integers (C70): the lanes are values that may be undefined. -/
def exprTrans (ty : IntTy) (ex : Expr) : VecOp Int (Outcome Int) where
  call args := (List.range (args.headD []).length).map fun i => ex.lane ty (laneArgs args i)
  shape w args hne hl := by
    cases args with
    | nil => exact absurd rfl hne
    | cons a as => simp [hl a (by simp)]

/-- These lanes are those of the expression on simds: it has a value if all lanes have, and is undefined if some lane is. -/
theorem exprTrans_simd {w : Nat} {args : List (List Int)} (hne : args ≠ []) (hl : ∀ a ∈ args, a.length = w) (hu : ex.Uses args.length) :
    (∀ r, (exprTrans ty ex).call args = r.map .ok → ex.simd ty w args = .ok r) ∧
    ((∃ i < w, ∃ u, ((exprTrans ty ex).call args)[i]? = some (.ub u)) → ∃ u, ex.simd ty w args = .ub u) := by
  have hw : (args.headD []).length = w := by
    cases args with
    | nil => exact absurd rfl hne
    | cons a as => exact hl a (by simp)
  have key := simd_lanes ty w args hl ex hu
  simp only [exprTrans, hw]
  constructor
  · intro r hr
    have hlen : r.length = w := by simpa using (congrArg List.length hr).symm
    have := key.1 (fun i => r.getD i 0) fun i hi => by
      have := congrArg (·[i]?) hr
      simpa [hi, hlen] using this
    rw [this]
    congr 1
    apply List.ext_getElem
    · simp [hlen]
    · intro i h1 h2; simp [h2]
  · rintro ⟨i, hi, u, h⟩
    refine key.2 ⟨i, hi, u, ?_⟩
    simpa [hi] using h

private theorem exprTrans_laneWise : LaneWise (exprTrans ty ex) fun xs => ex.lane ty xs := by
  intro w args hne hl
  cases args with
  | nil => exact absurd rfl hne
  | cons a as => simp [exprTrans, hl a (by simp), laneArgs]

section sums
variable {R : REnv Int (Outcome Int) (Outcome Int)} {mem : List Int}

/-- The elements with index `i` of all inputs of `transform_reduce`. -/
def Spec.inputsAt {β : Type} (R : REnv β (Outcome β) (Outcome β)) (mem : List β) (i : Nat) : List β := R.ins.filterMap fun a => mem[a + i]?

private theorem transformed_expr (hv : ValidTy ty) (hm : ∀ i < R.n, ∀ x ∈ inputsAt R mem i, ty.Has x) {ys : List Int}
    (hl : ys.length = R.n) (hy : ∀ i (h : i < ys.length), HasValue ty (inputsAt R mem i) ex ys[i]) :
    transformed R (fun xs => ex.lane ty xs) mem = ys.map .ok ∧ ∀ y ∈ ys, ty.Has y := by
  have key : ∀ i (h : i < ys.length), ex.lane ty (inputsAt R mem i) = .ok ys[i] ∧ ty.Has ys[i] := fun i h =>
    (lane_spec ty hv _ (hm i (by omega)) ex).1 _ (hy i h)
  constructor
  · apply List.ext_getElem
    · simp [transformed, hl]
    · intro i h1 h2
      simp only [List.length_map] at h2
      simpa [transformed, inputsAt] using (key i h2).1
  · intro y hy'
    obtain ⟨i, hi, rfl⟩ := List.mem_iff_getElem.1 hy'
    exact (key i hi).2

/-- **C74.** A sum of expressions, such as an inner product, in `int`, `long` or `long long` is defined and right if the expression
has a value for all indices and no selection of these values and `init` has a sum outside the type. -/
theorem sum_expr_defined (ok : SumOk R mem ty) (hop : R.trans = exprTrans ty ex) (hv : ValidTy ty) (hs : ty.signed = true)
    (hb : 32 ≤ ty.bits) (hm : ∀ i < R.n, ∀ x ∈ inputsAt R mem i, ty.Has x) {ys : List Int} (hl : ys.length = R.n)
    (hy : ∀ i (h : i < ys.length), HasValue ty (inputsAt R mem i) ex ys[i]) {init : Int} (hf : SubSumsFit ty (init :: ys)) :
    sumInts R mem init = .ok (init + ys.sum) :=
  sumInts_defined ok hs hb (hop ▸ exprTrans_laneWise) (transformed_expr hv hm hl hy).1 hf

/-- **C74.** For unsigned and narrow types it is the sum of the values modulo `2^bits`. -/
theorem sum_expr_wraps (ok : SumOk R mem ty) (hop : R.trans = exprTrans ty ex) (hv : ValidTy ty) (hw : WrapsAround ty)
    (hm : ∀ i < R.n, ∀ x ∈ inputsAt R mem i, ty.Has x) {ys : List Int} (hl : ys.length = R.n)
    (hy : ∀ i (h : i < ys.length), HasValue ty (inputsAt R mem i) ex ys[i]) {init : Int} (hi : ty.Has init) :
    sumInts R mem init = .ok (ty.conv (init + ys.sum)) :=
  sumInts_wraps ok hw (hop ▸ exprTrans_laneWise) (transformed_expr hv hm hl hy).1 (transformed_expr hv hm hl hy).2 hi

end sums

/-! ## The theorems apply -/

/-- `x * y + 1` -/
def mulAdd1 : Expr := .bin .add (.bin .mul (.arg 0) (.arg 1)) (.lit 1)

/-- Eleven products of numbers below 23, as in `exampleT`. -/
def exprMem : List Int := (List.range 23).map Int.ofNat

example : RangesOk (exampleT [.unrollBy 2]) exprMem := ⟨by decide, by decide, by decide, by decide⟩

example : ∀ i < (exampleT [.unrollBy 2]).n, ∀ x ∈ elementsAt (exampleT [.unrollBy 2]) exprMem i, IntTy.i32.Has x := by decide

example : ∃ v, HasValue IntTy.i32 (elementsAt (exampleT [.unrollBy 2]) exprMem 10) mulAdd1 v :=
  ⟨243, .bin (x := 242) (y := 1) (.bin (x := 11) (y := 22) (.arg rfl) (.arg rfl) (by simp only [IsUndefined]; decide) ⟨by decide, by decide⟩)
    (.lit ⟨by decide, by decide⟩) (by simp only [IsUndefined]; decide) ⟨by decide, by decide⟩⟩

example : transformP (exampleT [.unrollBy 2]) (fun k => (List.range k).reverse) (exprOp .i32 mulAdd1) exprMem =
    .ok (11, [13, 27, 43, 61, 81, 103, 127, 153, 181, 211, 243] ++ exprMem.drop 11) := by decide +kernel

-- one division by zero among 23 elements
example : forEachP exampleEnv (exprOp .i32 (.bin .div (.lit 100) (.arg 0))) exprMem = .ub .div0 := by decide +kernel

example : forEachP exampleEnv (exprOp .u8 (.bin .mul (.arg 0) (.lit 20))) exprMem =
    .ok [0, 20, 40, 60, 80, 100, 120, 140, 160, 180, 200, 220, 240, 4, 24, 44, 64, 84, 104, 124, 144, 164, 184] := by decide +kernel

/-- The inner product of two ranges of eleven numbers. -/
def dotSum (ty : IntTy) : REnv Int (Outcome Int) (Outcome Int) :=
  { exSum [.preferAligned] [0, 11] ty ty 11 with trans := exprTrans ty (.bin .mul (.arg 0) (.arg 1)) }

example : SumOk (dotSum .i32) exprMem .i32 :=
  have h := exSum_ok (pol := [.preferAligned]) (ins := [0, 11]) (t := .i32) (n := 11) (mem := exprMem) ⟨[.preferAligned], by decide⟩
    (by decide) (by decide) (by decide) (by decide +kernel) (by decide)
  ⟨rfl, rfl, rfl, ⟨h.ins.1, h.ins.2⟩, h.wf, rfl, rfl, h.fits, h.reach, h.ends, h.assume, h.hT, h.hB⟩

example : sumInts (dotSum .i32) exprMem (-7) = .ok 983 := by decide +kernel
example : sumInts (dotSum .u8) exprMem 0 = .ok (IntTy.u8.conv 990) := by decide +kernel

/-! ## The theorems applied to concrete data -/

private theorem wfT : (exampleT [.unrollBy 2]).e.WF := libstdcxx_wf _ (by decide) ⟨2, rfl⟩ rfl (by decide) ⟨[.unrollBy 2], by decide⟩ (by decide)
private theorem revPerm (k : Nat) : (List.range k).reverse.Perm (List.range k) := List.reverse_perm _
private theorem valid32 : ValidTy .i32 := by unfold ValidTy; decide

private theorem has_value {xs : List Int} (hx : LanesOf .i32 xs) {e : Expr} {v : Int} (h : e.lane .i32 xs = .ok v) : ∃ v, HasValue .i32 xs e v := by
  by_contra hn
  obtain ⟨u, hu⟩ := (lane_spec .i32 valid32 xs hx e).2 fun v hv => hn ⟨v, hv⟩
  rw [h] at hu
  cases hu

private theorem rangesT : RangesOk (exampleT [.unrollBy 2]) exprMem := ⟨by decide, by decide, by decide, by decide⟩
private theorem reachT : ReachesAlignment (exampleT [.unrollBy 2]).e (exampleT [.unrollBy 2]).n := (reaches_iff wfT).2 (by decide)
private theorem inT : ∀ i < (exampleT [.unrollBy 2]).n, ∀ x ∈ elementsAt (exampleT [.unrollBy 2]) exprMem i, IntTy.i32.Has x := by decide
private theorem usesT : mulAdd1.Uses (exampleT [.unrollBy 2]).ins.length := by simp [mulAdd1, Expr.Uses, exampleT]
private theorem valueT : ∀ i < (exampleT [.unrollBy 2]).n, ∃ v, HasValue .i32 (elementsAt (exampleT [.unrollBy 2]) exprMem i) mulAdd1 v := by
  intro i hi
  refine has_value (v := (i + 1) * (i + 12) + 1) (inT i hi) ?_
  revert i
  decide

example := transform_expr rangesT wfT rfl rfl (by unfold Env.Fits; decide) reachT (by decide) revPerm valid32 inT usesT valueT
example := transform_expr_ub (ex := .bin .div (.arg 0) (.lit 0)) rangesT wfT rfl rfl (by unfold Env.Fits; decide) reachT (by decide) revPerm valid32 inT
  (by simp [Expr.Uses, exampleT]) (i := 3) (by decide) (by
    intro v h
    have := ((lane_spec .i32 valid32 _ (inT 3 (by decide)) _).1 v h).1
    revert this
    exact nofun)
example := transform_expr_const (t := { exampleT [.unrollBy 2] with e := { exampleEnv with constEval := true } }) (mem := exprMem) (ex := mulAdd1)
  ⟨by decide, by decide, by decide, by decide⟩ (by decide) rfl rfl (by decide) revPerm valid32 inT usesT valueT

example := transform_expr_const_ub (t := { exampleT [.unrollBy 2] with e := { exampleEnv with constEval := true } }) (mem := exprMem)
  (ex := .bin .div (.arg 0) (.lit 0)) ⟨by decide, by decide, by decide, by decide⟩ (by decide) rfl rfl (by decide) revPerm valid32 inT
  (by simp [Expr.Uses, exampleT]) (i := 3) (by decide) (by
    intro v h
    have := ((lane_spec .i32 valid32 _ (inT 3 (by decide)) _).1 v h).1
    revert this
    exact nofun)

private theorem lanesMem : LanesOf .i32 exprMem := by unfold LanesOf; decide
private def sq : Expr := .bin .mul (.arg 0) (.arg 0)

example := forEach_expr (ex := sq) exampleEnv_wf rfl rfl exprMem (by unfold Env.Fits; decide) (fun _ _ _ _ => Or.inr ⟨3, by decide, by decide⟩) (by decide)
  valid32 lanesMem (by simp [sq, Expr.Uses]) (by
    intro x hx
    refine has_value (v := x * x) (by simpa [LanesOf] using lanesMem x hx) ?_
    revert x
    decide)
example := forEach_expr_ub (ex := .bin .div (.lit 100) (.arg 0)) exampleEnv_wf rfl rfl exprMem (by unfold Env.Fits; decide)
  (fun _ _ _ _ => Or.inr ⟨3, by decide, by decide⟩) (by decide) valid32 lanesMem (by simp [Expr.Uses]) (x := 0) (by decide) (by
    intro v h
    have := ((lane_spec .i32 valid32 [0] (by unfold LanesOf; decide) _).1 v h).1
    revert this
    exact nofun)
example := exprTrans_simd (ty := .i32) (ex := mulAdd1) (w := 2) (args := [[1, 2], [3, 4]]) (by decide) (by decide) (by simp [mulAdd1, Expr.Uses])

end Vir
