import Verif.Lemmas.ProgReduce
import Verif.Props.MaskedOps
import Verif.Props.ProgReduce
import Mathlib.Data.List.Perm.Basic

/-!
# C100 (continued): aggregating what masked simd programs compute
-/

namespace Vir
open Spec Spec.OneLane LaneProg ForEach Transform TransformReduce

variable {α : Type} [Inhabited α] {V M : Nat → Prop} {zs : List α} {nm out : Nat} {p : Stmt α} {R : REnv α (Outcome α) (Outcome α)} {mem : List α}
  {f : α → α → α}

/-- The operation, such as the addition of floating-point numbers, on values that may be undefined. -/
def Spec.liftOp (f : α → α → α) : Outcome α → Outcome α → Outcome α := strict2 fun a b => .ok (f a b)

/-- `R` aggregates with `f`, and the preconditions of C14 are met. -/
structure Spec.ReducesWith (R : REnv α (Outcome α) (Outcome α)) (mem : List α) (f : α → α → α) : Prop where
  rB : R.rB = liftOp f
  rT : R.rT = liftOp f
  cvt : R.cvt = id
  ins : InputsOk R mem
  wf : R.e.WF
  run : R.e.constEval = false
  flat : R.e.strictPtr = false
  fits : R.e.Fits R.n
  reach : ReachesAlignment R.e R.n
  ends : ¬ EndsAtFirstAligned R.e R.n
  assume : R.e.pol.assumeMatchingSize = true → R.e.size ∣ R.n
  hT : HReduce (liftOp f) R.hredT
  hB : HReduce (liftOp f) R.hredB

omit [Inhabited α] in
private theorem ok_with (ok : ReducesWith R mem f) (op : VecOp α (Outcome α)) : ReducesWith { R with trans := op } mem f :=
  ⟨ok.rB, ok.rT, ok.cvt, ⟨ok.ins.1, ok.ins.2⟩, ok.wf, ok.run, ok.flat, ok.fits, ok.reach, ok.ends, ok.assume, ok.hT, ok.hB⟩

omit [Inhabited α] in
private theorem blocks (ok : ReducesWith R mem f) (init : α) : (widths R).sum = R.n ∧ ∃ v, transformReduce R mem (.ok init) = .ok v ∧
    GSum (liftOp f) (.ok init :: outs R.trans R.ins mem 0 (widths R)) v :=
  TransformReduce.sum_blocks ok.rB ok.rT ok.cvt ok.ins ok.wf ok.run ok.flat ok.fits ok.reach ok.ends ok.assume ok.hT ok.hB init

omit [Inhabited α] in
private theorem all_ok : ∀ xs : List (Outcome α), (∀ x ∈ xs, ∃ z, x = .ok z) → ∃ l : List α, xs = l.map .ok
  | [], _ => ⟨[], rfl⟩
  | x :: xs, h => by
    obtain ⟨z, rfl⟩ := h x (by simp)
    obtain ⟨l, rfl⟩ := all_ok xs fun y hy => h y (by simp [hy])
    exact ⟨z :: l, rfl⟩

omit [Inhabited α] in
private theorem perm_ok {xs : List (Outcome α)} {zs : List α} (h : xs.Perm (zs.map .ok)) : ∃ l : List α, xs = l.map .ok ∧ l.Perm zs := by
  obtain ⟨l, rfl⟩ := all_ok xs fun x hx => by
    obtain ⟨z, _, rfl⟩ := List.mem_map.1 (h.mem_iff.1 hx)
    exact ⟨z, rfl⟩
  exact ⟨l, rfl, (List.map_perm_map_iff fun a b hab => by cases hab; rfl).1 h⟩

omit [Inhabited α] in
private theorem gsum_lift {xs : List (Outcome α)} {v : Outcome α} (h : GSum (liftOp f) xs v) : ∀ zs : List α, xs = zs.map .ok →
    ∃ w, v = .ok w ∧ GSum f zs w := by
  induction h with
  | single x =>
    intro zs hz
    match zs, hz with
    | [z], hz =>
      simp only [List.map_cons, List.map_nil, List.cons.injEq, and_true] at hz
      exact ⟨z, hz, .single z⟩
  | node _ _ iha ihb =>
    intro zs hz
    obtain ⟨l1, l2, rfl, h1, h2⟩ := List.map_eq_append_iff.1 hz.symm
    obtain ⟨a, rfl, ha⟩ := iha l1 h1.symm
    obtain ⟨b, rfl, hb⟩ := ihb l2 h2.symm
    exact ⟨f a b, rfl, .node ha hb⟩
  | perm hp _ ih =>
    intro zs hz
    subst hz
    obtain ⟨l, rfl, hl⟩ := perm_ok hp
    obtain ⟨w, hv, hg⟩ := ih l rfl
    exact ⟨w, hv, .perm hl hg⟩

/-- With enough fuel the program has the given values on all blocks. -/
private theorem masked_blocks (ok : InputsOk R mem) (hp : IsMasked (R.ins.length + zs.length) nm V M p) (ht : LoopsTotal p)
    (hout : out < R.ins.length + zs.length) (hV : ¬ V out) {ys : List α} (hl : ys.length = R.n)
    (hy : ∀ i (h : i < ys.length), Result zs nm out p (inputsAt R mem i) ys[i]) :
    ∃ N, ∀ n, N ≤ n → ∀ a w, a + w ≤ R.n → laneOp zs nm out p n w (block R mem a w) = .ok ((ys.drop a).take w) := by
  have one : ∀ a w, a + w ≤ R.n → ∃ N, ∀ n, N ≤ n → laneOp zs nm out p n w (block R mem a w) = .ok ((ys.drop a).take w) := by
    intro a w h
    obtain ⟨r, ⟨N, hN⟩, h2, h3⟩ := laneOp_value hp ht hout hV w (block R mem a w) (by simp [block])
      (fun x hx => ⟨block_len ok h x hx, fun _ _ => trivial⟩) fun i hi => by
        rw [block_lane hi]
        exact ⟨_, hy (a + i) (by omega)⟩
    have : r = (ys.drop a).take w := by
      apply List.ext_getElem (by simp; omega)
      intro i g1 g2
      have hi : i < w := by omega
      have := h3 i _ (List.getElem?_eq_getElem g1)
      rw [block_lane hi] at this
      rw [List.getElem_take, List.getElem_drop]
      exact result_unique this (hy (a + i) (by omega))
    exact ⟨N, fun n hn => by rw [hN n hn, this]⟩
  obtain ⟨C, hC⟩ := SimdProg.bound_below (P := fun a c => ∀ w, a + w ≤ R.n → ∀ n, c ≤ n →
      laneOp zs nm out p n w (block R mem a w) = .ok ((ys.drop a).take w)) (R.n + 1) fun a _ => by
    obtain ⟨C, hC⟩ := SimdProg.bound_below (P := fun w c => a + w ≤ R.n → ∀ n, c ≤ n →
        laneOp zs nm out p n w (block R mem a w) = .ok ((ys.drop a).take w)) (R.n + 1) fun w _ => by
      by_cases h : a + w ≤ R.n
      · obtain ⟨N, hN⟩ := one a w h
        exact ⟨N, fun _ => hN⟩
      · exact ⟨0, fun h' => absurd h' h⟩
    refine ⟨C, fun w hw n hn => ?_⟩
    obtain ⟨c, h1, h2⟩ := hC w (by omega)
    exact h2 hw n (by omega)
  refine ⟨C, fun n hn a w h => ?_⟩
  obtain ⟨c, h1, h2⟩ := hC a (by omega)
  exact h2 w h n (by omega)

/-- **C100.** `transform_reduce` with a masked program as `transform_op` and any `reduce_op`, for example the addition of floating-point numbers: if
the program on single elements ends with `ys[i]` for the elements with index `i`, for all `i`, the call ends, and the result combines `init` and
the `ys`, each once, in some order and grouping. -/
theorem reduce_masked (ok : ReducesWith R mem f) (hp : IsMasked (R.ins.length + zs.length) nm V M p) (ht : LoopsTotal p)
    (hout : out < R.ins.length + zs.length) (hV : ¬ V out) {ys : List α} (hl : ys.length = R.n)
    (hy : ∀ i (h : i < ys.length), Result zs nm out p (inputsAt R mem i) ys[i]) (init : α) :
    ∃ N, ∀ n, N ≤ n → ∃ v, sumInts { R with trans := joint (laneOp zs nm out p n) } mem init = .ok v ∧ GSum f (init :: ys) v := by
  obtain ⟨N, hN⟩ := masked_blocks ok.ins hp ht hout hV hl hy
  refine ⟨N, fun n hn => ?_⟩
  obtain ⟨h1, v, h2, h3⟩ := blocks (ok_with ok (joint (laneOp zs nm out p n))) init
  have hw : (widths R).sum = R.n := h1
  have := outs_joint ok.ins hl (hN n hn) (widths R) 0 (by omega)
  rw [hw, List.drop_zero, ← hl, List.take_length] at this
  change GSum (liftOp f) (.ok init :: outs (joint (laneOp zs nm out p n)) R.ins mem 0 (widths R)) v at h3
  rw [this] at h3
  obtain ⟨w, rfl, hg⟩ := gsum_lift h3 (init :: ys) (by simp)
  exact ⟨w, by rw [sumInts, h2]; rfl, hg⟩

/-- **C100.** For an associative and commutative `reduce_op` the result is that of the loop over the single elements. -/
theorem reduce_masked_fold (ok : ReducesWith R mem f) (hassoc : ∀ a b c, f (f a b) c = f a (f b c)) (hcomm : ∀ a b, f a b = f b a)
    (hp : IsMasked (R.ins.length + zs.length) nm V M p) (ht : LoopsTotal p) (hout : out < R.ins.length + zs.length) (hV : ¬ V out)
    {ys : List α} (hl : ys.length = R.n) (hy : ∀ i (h : i < ys.length), Result zs nm out p (inputsAt R mem i) ys[i]) (init : α) :
    ∃ N, ∀ n, N ≤ n → sumInts { R with trans := joint (laneOp zs nm out p n) } mem init = .ok (ys.foldl f init) := by
  obtain ⟨N, hN⟩ := reduce_masked ok hp ht hout hV hl hy init
  refine ⟨N, fun n hn => ?_⟩
  obtain ⟨v, h1, h2⟩ := hN n hn
  rw [h1, h2.eq_foldl hassoc hcomm]

/-- **C100.** Conversely, whenever the call ends, the program on single elements ends for the elements with every index, and the result
combines `init` and its results. -/
theorem reduce_masked_sound (ok : ReducesWith R mem f) (hp : IsMasked (R.ins.length + zs.length) nm V M p) (hV : ¬ V out) {init v : α} {n : Nat}
    (h : sumInts { R with trans := joint (laneOp zs nm out p n) } mem init = .ok v) :
    ∃ ys : List α, ys.length = R.n ∧ (∀ (i : Nat) (y : α), ys[i]? = some y → Result zs nm out p (inputsAt R mem i) y) ∧ GSum f (init :: ys) v := by
  obtain ⟨h1, o, h2, h3⟩ := blocks (ok_with ok (joint (laneOp zs nm out p n))) init
  have hw : (widths R).sum = R.n := h1
  rw [sumInts, h2] at h
  change o = .ok v at h
  subst h
  change GSum (liftOp f) (.ok init :: outs (joint (laneOp zs nm out p n)) R.ins mem 0 (widths R)) (.ok v) at h3
  have hall := gsum_all_ok h3 v rfl
  obtain ⟨ys, k1, k2, k3⟩ := joint_ok ok.ins (op := laneOp zs nm out p n) (Q := fun xs y => Result zs nm out p xs y) (fun a w r haw hr i y hy => by
      obtain ⟨g1, g2⟩ := laneOp_sound hp hV n w (block R mem a w) r (by simp [block])
        (fun x hx => ⟨block_len ok.ins haw x hx, fun _ _ => trivial⟩) hr
      have hiw : i < w := by rw [← g1]; exact (List.getElem?_eq_some_iff.1 hy).1
      have := g2 i y hy
      rwa [block_lane hiw] at this)
    (widths R) 0 (by omega) fun x hx => hall x (by simp [hx])
  rw [k1] at h3
  obtain ⟨w, hw', hg⟩ := gsum_lift h3 (init :: ys) (by simp)
  cases hw'
  exact ⟨ys, by omega, fun i y hy => by simpa using k3 i y hy, hg⟩

/-- **C100.** In constant evaluation the result is that of the loop over the single elements, for every `reduce_op`. -/
theorem reduce_masked_const (ins : InputsOk R mem) (hT : R.rT = liftOp f) (hc : R.cvt = id) (hce : R.e.constEval = true)
    (ha : R.e.pol.assumeMatchingSize = true → R.e.size ∣ R.n) (hp : IsMasked (R.ins.length + zs.length) nm V M p) (ht : LoopsTotal p)
    (hout : out < R.ins.length + zs.length) (hV : ¬ V out) {ys : List α} (hl : ys.length = R.n)
    (hy : ∀ i (h : i < ys.length), Result zs nm out p (inputsAt R mem i) ys[i]) (init : α) :
    ∃ N, ∀ n, N ≤ n → sumInts { R with trans := joint (laneOp zs nm out p n) } mem init = .ok (ys.foldl f init) := by
  obtain ⟨N, hN⟩ := masked_blocks ins hp ht hout hV hl hy
  refine ⟨N, fun n hn => ?_⟩
  have h1 := transformReduce_const (R := { R with trans := joint (laneOp zs nm out p n) }) (mem := mem) ⟨ins.1, ins.2⟩ hce ha (.ok init)
  have h2 := outs_joint ins hl (hN n hn) (List.replicate R.n 1) 0 (by simp)
  rw [sumInts, h1]
  change List.foldl R.rT (.ok init) ((outs (joint (laneOp zs nm out p n)) R.ins mem 0 (List.replicate R.n 1)).map R.cvt) = _
  rw [h2, hT, hc, List.map_id, List.drop_zero, List.sum_replicate_nat, Nat.mul_one, ← hl, List.take_length]
  clear h1 h2 hy hl hN
  induction ys generalizing init with
  | nil => rfl
  | cons y ys ih => exact ih (f init y)

/-! ### The theorems are about something -/

private def foldAll (f : Int → Int → Int) (v : List (Outcome Int)) : Outcome Int := v.tail.foldl (liftOp f) (v.headD (.ok 0))

private theorem foldAll_ok (f : Int → Int → Int) : HReduce (liftOp f) (foldAll f) := by
  intro v hv
  cases v with
  | nil => exact absurd rfl hv
  | cons x xs => exact Simd.foldl_gsum (liftOp f) x xs

/-- `vir::transform_reduce(policy, xs, ys, init, f, …)` on eleven pairs. -/
private def red (f : Int → Int → Int) (ce : Bool) : REnv Int (Outcome Int) (Outcome Int) where
  e := { exampleEnv with pol := ⟨[.preferAligned]⟩, constEval := ce }
  ins := [0, 11]
  n := 11
  trans := joint fun _ _ => .trap
  rB := liftOp f
  rT := liftOp f
  cvt := id
  hredB := foldAll f
  hredT := foldAll f

private def reals : List Int := [0, 100, -200, 30, 40, -100, 50, -75, 25, 10, -125]
private def imags : List Int := [0, 0, 100, 50, 40, 0, 50, 10, 60, 70, 20]
private def counts : List Nat := [20, 3, 1, 20, 10, 20, 5, 20, 14, 9, 11]
private def pts : List Int := reals ++ imags

private theorem red_ok (f : Int → Int → Int) : ReducesWith (red f false) pts f := by
  have wf : (red f false).e.WF := libstdcxx_wf _ (show 0 < 4 by decide) ⟨2, rfl⟩ rfl (show 4 ∣ 0x1004 by decide) ⟨[.preferAligned], rfl⟩
    (show stdBitCeil (4 * 4) ≤ 4000 by decide)
  refine ⟨rfl, rfl, rfl, ⟨by simp [red], fun a ha => ?_⟩, wf, rfl, rfl, show 11 * 4 < 2 ^ 64 by decide, ?_, ?_, fun h => ?_, foldAll_ok f, foldAll_ok f⟩
  · have : a = 0 ∨ a = 11 := by simpa [red] using ha
    show a + 11 ≤ 22
    omega
  · rw [reaches_iff wf]
    exact Or.inr (show proCount { exampleEnv with pol := ⟨[.preferAligned]⟩, constEval := false } 11 ≤ 11 by decide +kernel)
  · rw [ends_iff wf]
    exact (show ¬ ((11 : Nat) ≠ 0 ∧ proCount { exampleEnv with pol := ⟨[.preferAligned]⟩, constEval := false } 11 = 11) by decide +kernel)
  · cases h

/-- Fixed-point numbers with two decimals. -/
private def fixed : PointArith Int where
  re x y := (x * x - y * y) / 100
  im x y := 2 * x * y / 100
  add := (· + ·)
  next := (· + 1)
  small x y := decide (x * x + y * y ≤ 40000)
  more n := decide (n < 20)

private theorem isMasked : IsMasked (2 + [(0 : Int), 0, 0, 0].length) 1 (· = 5) (fun _ => False) (mandelImage fixed 0) := mandelImage_masked fixed 0

private theorem points_result : ∀ i (h : i < (counts.map Int.ofNat).length),
    Result [0, 0, 0, 0] 1 4 (mandelImage fixed 0) ([0, 11].filterMap fun a => pts[a + i]?) (counts.map Int.ofNat)[i] := by
  have he : ∀ i < 11, ([0, 11].filterMap fun a => pts[a + i]?) = [reals.getD i 0, imags.getD i 0] := by decide
  have hc : ∀ i < 11, (∀ k, k < counts.getD i 0 → mandelGo fixed ((mandelStep fixed (reals.getD i 0) (imags.getD i 0))^[k] (0, 0, 0)) = true) ∧
    mandelGo fixed ((mandelStep fixed (reals.getD i 0) (imags.getD i 0))^[counts.getD i 0] (0, 0, 0)) = false := by decide +kernel
  have hv : ∀ i (h : i < (counts.map Int.ofNat).length), (counts.map Int.ofNat)[i] =
      ((mandelStep fixed (reals.getD i 0) (imags.getD i 0))^[counts.getD i 0] (0, 0, 0)).2.2 := by decide +kernel
  intro i h
  have hi : i < 11 := h
  rw [he i hi, hv i h]
  exact mandelImage_result fixed 0 (hc i hi).1 (hc i hi).2

/-- The largest number of iterations of eleven points. -/
example : ∃ N, ∀ n, N ≤ n → sumInts { red max false with trans := joint (laneOp [0, 0, 0, 0] 1 4 (mandelImage fixed 0) n) } pts 4 = .ok 20 :=
  reduce_masked_fold (red_ok max) Int.max_assoc Int.max_comm isMasked (mandelImage_total fixed 0) (by decide) (by decide)
    (ys := counts.map Int.ofNat) rfl points_result 4

example : sumInts { red max false with trans := joint (laneOp [0, 0, 0, 0] 1 4 (mandelImage fixed 0) 30) } pts 4 = .ok 20 := by decide +kernel

/-- An addition that rounds to a multiple of 8, so that the order and grouping matter. -/
private def coarse (a b : Int) : Int := (a + b) / 8 * 8

example := reduce_masked (red_ok coarse) isMasked (mandelImage_total fixed 0) (by decide) (by decide)
  (ys := counts.map Int.ofNat) rfl points_result 4

example {n : Nat} {v : Int} (h : sumInts { red coarse false with trans := joint (laneOp [0, 0, 0, 0] 1 4 (mandelImage fixed 0) n) } pts 4 = .ok v) :=
  reduce_masked_sound (red_ok coarse) isMasked (by decide) h

-- the sequential loop and the simds round differently, constant evaluation does not
example : sumInts { red coarse false with trans := joint (laneOp [0, 0, 0, 0] 1 4 (mandelImage fixed 0) 30) } pts 4 = .ok 128 ∧
    (counts.map Int.ofNat).foldl coarse 4 = 104 := by decide +kernel

example : ∃ N, ∀ n, N ≤ n → sumInts { red coarse true with trans := joint (laneOp [0, 0, 0, 0] 1 4 (mandelImage fixed 0) n) } pts 4 =
    .ok ((counts.map Int.ofNat).foldl coarse 4) :=
  reduce_masked_const (R := red coarse true) ⟨(red_ok coarse).ins.1, (red_ok coarse).ins.2⟩ rfl rfl rfl (fun h => by cases h) isMasked (mandelImage_total fixed 0) (by decide)
    (by decide) (ys := counts.map Int.ofNat) rfl points_result 4

end Vir
