import Verif.Lemmas.ProgReduce
import Verif.Props.ProgOps

/-!
# C98: sums of what an operation that may be undefined, or a simd program, computes
-/

namespace Vir
open Spec SimdProg ForEach Transform TransformReduce IntTy

variable {R : REnv Int (Outcome Int) (Outcome Int)} {mem : List Int} {ty : IntTy} {ts : List IntTy} {nm out : Nat} {p : Stmt}

private theorem ok_with (ok : SumOk R mem ty) (op : VecOp Int (Outcome Int)) : SumOk { R with trans := op } mem ty :=
  ⟨ok.rB, ok.rT, ok.cvt, ⟨ok.ins.1, ok.ins.2⟩, ok.wf, ok.run, ok.flat, ok.fits, ok.reach, ok.ends, ok.assume, ok.hT, ok.hB⟩

private theorem sum_blocks (ok : SumOk R mem ty) (init : Int) : (widths R).sum = R.n ∧ ∃ v, transformReduce R mem (.ok init) = .ok v ∧
    GSum (plusOp ty) (.ok init :: outs R.trans R.ins mem 0 (widths R)) v :=
  TransformReduce.sum_blocks ok.rB ok.rT ok.cvt ok.ins ok.wf ok.run ok.flat ok.fits ok.reach ok.ends ok.assume ok.hT ok.hB init

private theorem block_has (hm : ∀ i < R.n, ∀ x ∈ inputsAt R mem i, ty.Has x) {p w : Nat} (ok : InputsOk R mem) (h : p + w ≤ R.n) :
    ∀ a ∈ block R mem p w, a.length = w ∧ ∀ x ∈ a, ty.Has x := by
  intro a ha
  refine ⟨block_len ok h a ha, fun x hx => ?_⟩
  obtain ⟨i, hi, rfl⟩ := List.getElem_of_mem hx
  have hiw : i < w := by rw [← block_len ok h a ha]; exact hi
  refine hm (p + i) (by omega) _ ?_
  rw [← block_lane hiw]
  exact List.mem_filterMap.2 ⟨a, ha, List.getElem?_eq_getElem hi⟩

/-- With enough fuel the program has the given values on all blocks. -/
private theorem prog_blocks (ok : InputsOk R mem) (hm : ∀ i < R.n, ∀ x ∈ inputsAt R mem i, ty.Has x)
    (hts : VarTypes (List.replicate R.ins.length ty ++ ts)) (hp : Typed (List.replicate R.ins.length ty ++ ts) nm p)
    (hout : out < R.ins.length + ts.length) {ys : List Int} (hl : ys.length = R.n)
    (hy : ∀ i (h : i < ys.length), ProgValue ts.length nm out p (inputsAt R mem i) ys[i]) :
    ∃ N, ∀ n, N ≤ n → ∀ a w, a + w ≤ R.n → progOp ts.length nm out p n w (block R mem a w) = .ok ((ys.drop a).take w) := by
  have one : ∀ a w, a + w ≤ R.n → ∃ N, ∀ n, N ≤ n → progOp ts.length nm out p n w (block R mem a w) = .ok ((ys.drop a).take w) := by
    intro a w h
    obtain ⟨r, ⟨N, hN⟩, h2, h3⟩ := progOp_value hts hp hout w (block R mem a w) (by simp [block]) (block_has hm ok h) fun i hi => by
      rw [block_lane hi]
      exact ⟨_, hy (a + i) (by omega)⟩
    have : r = (ys.drop a).take w := by
      apply List.ext_getElem (by simp; omega)
      intro i g1 g2
      have hi : i < w := by omega
      have := h3 i _ (List.getElem?_eq_getElem g1)
      rw [block_lane hi] at this
      rw [List.getElem_take, List.getElem_drop]
      have hlen : (inputsAt R mem (a + i)).length = R.ins.length := by
        unfold inputsAt
        rw [← List.length_map (as := R.ins) (f := fun b => mem[b + (a + i)]?.getD 0)]
        have hm' : ∀ (l : List Nat), (∀ b ∈ l, b + R.n ≤ mem.length) →
            l.filterMap (fun b => mem[b + (a + i)]?) = l.map fun b => mem[b + (a + i)]?.getD 0 := by
          intro l
          induction l with
          | nil => intro _; rfl
          | cons b l ih =>
            intro hb
            have h1 := hb b (by simp)
            have hx : mem[b + (a + i)]? = some (mem[b + (a + i)]'(by omega)) := List.getElem?_eq_getElem _
            rw [List.filterMap_cons_some (f := fun b => mem[b + (a + i)]?) hx, List.map_cons, ih fun c hc => hb c (by simp [hc]), hx, Option.getD_some]
        rw [hm' R.ins ok.ins_le]
      exact progValue_unique (ty := ty) (by rw [hlen]; exact hts) (by rw [hlen]; exact hp) (hm (a + i) (by omega)) this (hy (a + i) (by omega))
    exact ⟨N, fun n hn => by rw [hN n hn, this]⟩
  obtain ⟨C, hC⟩ := bound_below (P := fun a c => ∀ w, a + w ≤ R.n → ∀ n, c ≤ n →
      progOp ts.length nm out p n w (block R mem a w) = .ok ((ys.drop a).take w)) (R.n + 1) fun a _ => by
    obtain ⟨C, hC⟩ := bound_below (P := fun w c => a + w ≤ R.n → ∀ n, c ≤ n →
        progOp ts.length nm out p n w (block R mem a w) = .ok ((ys.drop a).take w)) (R.n + 1) fun w _ => by
      by_cases h : a + w ≤ R.n
      · obtain ⟨N, hN⟩ := one a w h
        exact ⟨N, fun _ => hN⟩
      · exact ⟨0, fun h' => absurd h' h⟩
    refine ⟨C, fun w hw n hn => ?_⟩
    obtain ⟨c, h1, h2⟩ := hC w (by omega)
    exact h2 hw n (by omega)
  refine ⟨C, fun n hn a w h => ?_⟩
  obtain ⟨c, h1, h2⟩ := hC a (by omega)
  exact h2 w h n (by omega)

private theorem sum_prog_gsum (ok : SumOk R mem ty) (hm : ∀ i < R.n, ∀ x ∈ inputsAt R mem i, ty.Has x)
    (hts : VarTypes (List.replicate R.ins.length ty ++ ts)) (hp : Typed (List.replicate R.ins.length ty ++ ts) nm p)
    (hout : out < R.ins.length + ts.length) {ys : List Int} (hl : ys.length = R.n)
    (hy : ∀ i (h : i < ys.length), ProgValue ts.length nm out p (inputsAt R mem i) ys[i]) (init : Int) :
    ∃ N, ∀ n, N ≤ n → ∃ v, transformReduce { R with trans := joint (progOp ts.length nm out p n) } mem (.ok init) = .ok v ∧
      GSum (plusOp ty) ((init :: ys).map .ok) v := by
  obtain ⟨N, hN⟩ := prog_blocks ok.ins hm hts hp hout hl hy
  refine ⟨N, fun n hn => ?_⟩
  obtain ⟨h1, v, h2, h3⟩ := Vir.sum_blocks (ok_with ok (joint (progOp ts.length nm out p n))) init
  refine ⟨v, h2, ?_⟩
  have hw : (widths R).sum = R.n := h1
  have := outs_joint ok.ins hl (hN n hn) (widths R) 0 (by omega)
  rw [hw, List.drop_zero, ← hl, List.take_length] at this
  change GSum (plusOp ty) (.ok init :: outs (joint (progOp ts.length nm out p n)) R.ins mem 0 (widths R)) v at h3
  rw [this] at h3
  simpa using h3

/-- **C98.** `transform_reduce` (with one or more ranges) with `std::plus<>` and a simd program as `transform_op`, in `int`, `long` or `long
long`: if the program on numbers ends with `ys[i]` for the elements with index `i`, for all `i`, and no selection of these values and
`init` has a sum outside the type, the result is the sum. -/
theorem sum_prog_defined (ok : SumOk R mem ty) (hs : ty.signed = true) (hb : 32 ≤ ty.bits) (hm : ∀ i < R.n, ∀ x ∈ inputsAt R mem i, ty.Has x)
    (hts : VarTypes (List.replicate R.ins.length ty ++ ts)) (hp : Typed (List.replicate R.ins.length ty ++ ts) nm p)
    (hout : (List.replicate R.ins.length ty ++ ts)[out]? = some ty) {ys : List Int} (hl : ys.length = R.n)
    (hy : ∀ i (h : i < ys.length), ProgValue ts.length nm out p (inputsAt R mem i) ys[i]) {init : Int} (hf : SubSumsFit ty (init :: ys)) :
    ∃ N, ∀ n, N ≤ n → sumInts { R with trans := joint (progOp ts.length nm out p n) } mem init = .ok (init + ys.sum) := by
  have hout' : out < R.ins.length + ts.length := by simpa using (List.getElem?_eq_some_iff.1 hout).1
  obtain ⟨N, hN⟩ := sum_prog_gsum ok hm hts hp hout' hl hy init
  refine ⟨N, fun n hn => ?_⟩
  obtain ⟨v, h1, h2⟩ := hN n hn
  rw [sumInts, h1, gsum_fits hs hb h2 rfl hf]
  simp

private theorem progOp_has {m : Nat} (hts : VarTypes (List.replicate m ty ++ ts)) (hp : Typed (List.replicate m ty ++ ts) nm p)
    (hout : (List.replicate m ty ++ ts)[out]? = some ty) {fuel w : Nat} {args : List (List Int)} {r : List Int} (hl : args.length = m)
    (ha : ∀ a ∈ args, a.length = w ∧ ∀ x ∈ a, ty.Has x) (hr : progOp ts.length nm out p fuel w args = .ok r) : ∀ x ∈ r, ty.Has x := by
  have hs := start_shape (ts := ts) hl ha nm
  unfold progOp at hr
  cases hrun : p.run w fuel ⟨args ++ List.replicate ts.length (List.replicate w 0), List.replicate nm (List.replicate w false)⟩ with
  | ub u => rw [hrun] at hr; cases hr
  | trap => rw [hrun] at hr; cases hr
  | ok s' =>
    rw [hrun, Outcome.bind_ok] at hr
    obtain ⟨hs', -⟩ := prog_sound hts p hp _ s' hs fuel hrun
    unfold SimdProg.get at hr
    split at hr
    · rename_i x hx
      cases hr
      exact (hs'.var out ty _ hout hx).2
    · cases hr

/-- **C98.** In types whose sums never overflow (unsigned, or narrower than `int`) the result is the sum modulo a power of two, without
condition on the values. -/
theorem sum_prog_wraps (ok : SumOk R mem ty) (hw : WrapsAround ty) (hm : ∀ i < R.n, ∀ x ∈ inputsAt R mem i, ty.Has x)
    (hts : VarTypes (List.replicate R.ins.length ty ++ ts)) (hp : Typed (List.replicate R.ins.length ty ++ ts) nm p)
    (hout : (List.replicate R.ins.length ty ++ ts)[out]? = some ty) {ys : List Int} (hl : ys.length = R.n)
    (hy : ∀ i (h : i < ys.length), ProgValue ts.length nm out p (inputsAt R mem i) ys[i]) {init : Int} (hi : ty.Has init) :
    ∃ N, ∀ n, N ≤ n → sumInts { R with trans := joint (progOp ts.length nm out p n) } mem init = .ok (ty.conv (init + ys.sum)) := by
  have hout' : out < R.ins.length + ts.length := by simpa using (List.getElem?_eq_some_iff.1 hout).1
  obtain ⟨N, hN⟩ := sum_prog_gsum ok hm hts hp hout' hl hy init
  obtain ⟨M, hM⟩ := prog_blocks ok.ins hm hts hp hout' hl hy
  have hh : ∀ y ∈ ys, ty.Has y := by
    have := progOp_has hts hp hout (by simp [block]) (block_has hm ok.ins (p := 0) (w := R.n) (by omega)) (hM M (Nat.le_refl _) 0 R.n (by omega))
    rwa [List.drop_zero, ← hl, List.take_length] at this
  refine ⟨N, fun n hn => ?_⟩
  obtain ⟨v, h1, h2⟩ := hN n hn
  have hh' : ∀ z ∈ init :: ys, ty.Has z := by simpa using ⟨hi, hh⟩
  have hb : 0 < ty.bits := by rcases hw with ⟨_, h⟩ | ⟨h, _⟩ <;> omega
  obtain ⟨w, rfl, _⟩ := gsum_wraps hw h2 rfl hh'
  have := (gsum_value hb h2 rfl hh' w rfl).1
  rw [sumInts, h1, this]
  simp

/-- **C98 (whenever the call returns a value).** Every element then has a result, which the statements of the program can take it to, and
what is returned is the sum of `init` and all these results, modulo a power of two. Without `idle` this is the program on numbers. -/
theorem sum_prog_sound (ok : SumOk R mem ty) (hb : 0 < ty.bits) (hm : ∀ i < R.n, ∀ x ∈ inputsAt R mem i, ty.Has x)
    (hts : VarTypes (List.replicate R.ins.length ty ++ ts)) (hp : Typed (List.replicate R.ins.length ty ++ ts) nm p)
    (hout : (List.replicate R.ins.length ty ++ ts)[out]? = some ty) {idle : Prop} (hid : idle ∨ MaskedLoops p) {init : Int} (hi : ty.Has init)
    {fuel : Nat} {v : Int} (h : sumInts { R with trans := joint (progOp ts.length nm out p fuel) } mem init = .ok v) :
    ∃ ys : List Int, ys.length = R.n ∧ (∀ (i : Nat) (y : Int), ys[i]? = some y → StepsValue idle ts.length nm out p (inputsAt R mem i) y) ∧
      v = ty.conv (init + ys.sum) := by
  obtain ⟨h1, o, h2, h3⟩ := Vir.sum_blocks (ok_with ok (joint (progOp ts.length nm out p fuel))) init
  have hw : (widths R).sum = R.n := h1
  rw [sumInts, h2] at h
  change o = .ok v at h
  subst h
  change GSum (plusOp ty) (.ok init :: outs (joint (progOp ts.length nm out p fuel)) R.ins mem 0 (widths R)) (.ok v) at h3
  have hall := gsum_all_ok h3 v rfl
  obtain ⟨ys, k1, k2, k3⟩ := joint_ok ok.ins (op := progOp ts.length nm out p fuel)
    (Q := fun xs y => StepsValue idle ts.length nm out p xs y ∧ ty.Has y) (fun a w r haw hr i y hy => by
      have hbl := block_has hm ok.ins haw
      obtain ⟨g1, g2⟩ := progOp_sound hts hp hid fuel w (block R mem a w) r (by simp [block]) hbl hr
      have hiw : i < w := by rw [← g1]; exact (List.getElem?_eq_some_iff.1 hy).1
      have := g2 i y hy
      rw [block_lane hiw] at this
      exact ⟨this, progOp_has hts hp hout (by simp [block]) hbl hr y (List.mem_of_getElem? hy)⟩)
    (widths R) 0 (by omega) fun x hx => hall x (by simp [hx])
  rw [k1] at h3
  refine ⟨ys, by omega, fun i y hy => by simpa using (k3 i y hy).1, ?_⟩
  have hh : ∀ z ∈ init :: ys, ty.Has z := by
    intro z hz
    rcases List.mem_cons.1 hz with rfl | hz
    · exact hi
    · obtain ⟨i, g, rfl⟩ := List.getElem_of_mem hz
      exact (k3 i _ (List.getElem?_eq_getElem g)).2
  simpa using (gsum_value hb h3 (zs := init :: ys) (by simp) hh v rfl).1

/-- **C98 (a whole algorithm).** `transform_reduce` with `std::plus<>` and Euclid's algorithm on simds returns the sum of the greatest
common divisors of the elements of two ranges, if it is a value of the type. -/
theorem sum_gcd (ok : SumOk R mem ty) (hs : ty.signed = true) (hb : 32 ≤ ty.bits) (hv : ValidTy ty) {a b : Nat} (hins : R.ins = [a, b])
    (xs ys : Nat → Nat) (hx : ∀ i < R.n, mem[a + i]? = some (xs i : Int) ∧ ty.Has (xs i))
    (hy : ∀ i < R.n, mem[b + i]? = some (ys i : Int) ∧ ty.Has (ys i)) {init : Int} (hi : ty.Has init)
    (hf : max init 0 + ((List.range R.n).map fun i => (Nat.gcd (xs i) (ys i) : Int)).sum ≤ ty.max) :
    ∃ N, ∀ n, N ≤ n → sumInts { R with trans := joint (progOp 1 1 0 (euclid ty) n) } mem init =
      .ok (init + ((List.range R.n).map fun i => (Nat.gcd (xs i) (ys i) : Int)).sum) := by
  have hel : ∀ i < R.n, inputsAt R mem i = [(xs i : Int), (ys i : Int)] := by
    intro i hi
    unfold inputsAt
    rw [hins]
    simp [(hx i hi).1, (hy i hi).1]
  refine sum_prog_defined (ts := [ty]) ok hs hb (fun i hi x h => ?_) (fun t' h => ?_) ?_ (by rw [hins]; rfl) (by simp) (fun i h => ?_) ?_
  · rw [hel i hi] at h
    simp only [List.mem_cons, List.not_mem_nil, or_false] at h
    rcases h with rfl | rfl
    · exact (hx i hi).2
    · exact (hy i hi).2
  · have : t' = ty := by
      rcases List.mem_append.1 h with h | h
      · exact List.eq_of_mem_replicate h
      · exact List.mem_singleton.1 h
    subst this
    exact ⟨hv, by omega⟩
  · rw [hins]
    simp [euclid, euclidBody, Typed, MkTyped, ExTyped, hv]
  · have hi : i < R.n := by simpa using h
    rw [hel i hi, List.getElem_map, List.getElem_range]
    obtain ⟨c, h⟩ := euclid_lane (t := ty) has_zero (xs i) (ys i) 0 false
    exact ⟨_, h, rfl⟩
  · rw [sumInts_condition]
    have h0 : ∀ l : List Nat, ((l.map fun i => (Nat.gcd (xs i) (ys i) : Int)).filter fun z => decide (0 < z)).sum =
        (l.map fun i => (Nat.gcd (xs i) (ys i) : Int)).sum ∧ ((l.map fun i => (Nat.gcd (xs i) (ys i) : Int)).filter fun z => decide (z < 0)) = [] := by
      intro l
      induction l with
      | nil => exact ⟨rfl, rfl⟩
      | cons i l ih =>
        simp only [List.map_cons, List.filter_cons, List.sum_cons]
        refine ⟨?_, by rw [if_neg (by simp), ih.2]⟩
        by_cases hg : (0 : Int) < (Nat.gcd (xs i) (ys i) : Int)
        · rw [if_pos (by simpa using hg), List.sum_cons, ih.1]
        · rw [if_neg (by simpa using hg), ih.1]
          omega
    have hz : ty.Has 0 := has_zero
    obtain ⟨g1, g2⟩ := h0 (List.range R.n)
    have hi' : ty.lowest ≤ init := hi.1
    have hz' : ty.lowest ≤ 0 := hz.1
    simp only [List.filter_cons]
    refine ⟨?_, ?_, hz⟩
    · split
      · rw [List.sum_cons, g1]; omega
      · rw [g1]; omega
    · rw [g2]
      split
      · simpa using hi'
      · simpa using hz'

private theorem fold_ub {u : UB} : ∀ xs : List (Outcome Int), xs.foldl (plusOp ty) (.ub u) = .ub u
  | [] => rfl
  | x :: xs => by rw [List.foldl_cons]; exact fold_ub xs

private theorem fold_fits (hs : ty.signed = true) (hb : 32 ≤ ty.bits) : ∀ (ys : List Int) (init : Int),
    ((∀ k ≤ ys.length, ty.Has (init + (ys.take k).sum)) → (ys.map Outcome.ok).foldl (plusOp ty) (.ok init) = .ok (init + ys.sum)) ∧
    (ty.Has init → (∃ k ≤ ys.length, ¬ ty.Has (init + (ys.take k).sum)) → (ys.map Outcome.ok).foldl (plusOp ty) (.ok init) = .ub .overflow)
  | [], init => by
    refine ⟨fun _ => by simp, fun hi ⟨k, hk, h⟩ => ?_⟩
    simp at h
    exact absurd hi h
  | y :: ys, init => by
    obtain ⟨h1, h2⟩ := fold_fits hs hb ys (init + y)
    rw [List.map_cons, List.foldl_cons, plusOp_ok]
    constructor
    · intro h
      have hy : ty.Has (init + y) := by simpa using h 1 (by simp)
      rw [add_fits hs hb hy, h1 fun k hk => ?_, List.sum_cons, Int.add_assoc]
      have := h (k + 1) (by simpa using hk)
      rwa [List.take_succ_cons, List.sum_cons, ← Int.add_assoc] at this
    · rintro hi ⟨k, hk, h⟩
      by_cases hy : ty.Has (init + y)
      · rw [add_fits hs hb hy]
        refine h2 hy ?_
        cases k with
        | zero => simp at h; exact absurd hi h
        | succ k =>
          refine ⟨k, by simpa using hk, ?_⟩
          rwa [List.take_succ_cons, List.sum_cons, ← Int.add_assoc] at h
      · have h1 : ¬ ty.bits < 32 := by omega
        have hu : BinOp.eval ty .add init y = .ub .overflow := by
          unfold BinOp.eval BinOp.evalIn IntTy.arith IntTy.promote
          simp [h1, hs, hy]
        rw [hu, fold_ub]

/-- **C98 (constant evaluation).** Then the elements are added from left to right: the result is the sum if all the partial sums are
values of the type, and otherwise there is none; policy and address do not matter. -/
theorem sum_prog_const (ins : InputsOk R mem) (hT : R.rT = plusOp ty) (hc : R.cvt = id) (hce : R.e.constEval = true)
    (ha : R.e.pol.assumeMatchingSize = true → R.e.size ∣ R.n) (hs : ty.signed = true) (hb : 32 ≤ ty.bits)
    (hm : ∀ i < R.n, ∀ x ∈ inputsAt R mem i, ty.Has x) (hts : VarTypes (List.replicate R.ins.length ty ++ ts))
    (hp : Typed (List.replicate R.ins.length ty ++ ts) nm p) (hout : (List.replicate R.ins.length ty ++ ts)[out]? = some ty) {ys : List Int}
    (hl : ys.length = R.n) (hy : ∀ i (h : i < ys.length), ProgValue ts.length nm out p (inputsAt R mem i) ys[i]) {init : Int}
    (hi : ty.Has init) : ∃ N, ∀ n, N ≤ n →
      ((∀ k ≤ R.n, ty.Has (init + (ys.take k).sum)) →
        sumInts { R with trans := joint (progOp ts.length nm out p n) } mem init = .ok (init + ys.sum)) ∧
      ((∃ k ≤ R.n, ¬ ty.Has (init + (ys.take k).sum)) →
        sumInts { R with trans := joint (progOp ts.length nm out p n) } mem init = .ub .overflow) := by
  have hout' : out < R.ins.length + ts.length := by simpa using (List.getElem?_eq_some_iff.1 hout).1
  obtain ⟨N, hN⟩ := prog_blocks ins hm hts hp hout' hl hy
  refine ⟨N, fun n hn => ?_⟩
  have hrun : sumInts { R with trans := joint (progOp ts.length nm out p n) } mem init = (ys.map Outcome.ok).foldl (plusOp ty) (.ok init) := by
    have h1 := transformReduce_const (R := { R with trans := joint (progOp ts.length nm out p n) }) (mem := mem) ⟨ins.1, ins.2⟩ hce ha (.ok init)
    have h2 := outs_joint ins hl (hN n hn) (List.replicate R.n 1) 0 (by simp)
    rw [sumInts, h1]
    change List.foldl R.rT (.ok init) ((outs (joint (progOp ts.length nm out p n)) R.ins mem 0 (List.replicate R.n 1)).map R.cvt) = _
    rw [h2, hT, hc, List.map_id, List.drop_zero, List.sum_replicate_nat, Nat.mul_one, ← hl, List.take_length]
  rw [hrun, ← hl]
  exact ⟨(fold_fits hs hb ys init).1, (fold_fits hs hb ys init).2 hi⟩

/-! ### the theorems are about something -/

private theorem valid32 : ValidTy i32 := by unfold ValidTy; decide
private theorem valid8 : ValidTy u8 := by unfold ValidTy; decide

/-- Eleven pairs `(i + 6, 2 * i + 4)`, with a prologue, simds and an epilogue. -/
private def gcdMem : List Int := (List.range 11).map (fun i => Int.ofNat (i + 6)) ++ (List.range 11).map fun i => Int.ofNat (2 * i + 4)

private theorem gcdOk : SumOk (exSum [.preferAligned] [0, 11] .i32 .i32 11) gcdMem .i32 :=
  exSum_ok ⟨[.preferAligned], by decide⟩ (by decide) (by decide) (by decide) (by decide +kernel) (by decide)

example : ∃ N, ∀ n, N ≤ n → sumInts { exSum [.preferAligned] [0, 11] .i32 .i32 11 with trans := joint (progOp 1 1 0 (euclid i32) n) }
    gcdMem (-7) = .ok (-7 + 31) := by
  obtain ⟨N, h⟩ := sum_gcd gcdOk rfl (by decide) valid32 (a := 0) (b := 11) rfl (fun i => i + 6) (fun i => 2 * i + 4) (by decide) (by decide)
    (init := -7) (by decide) (by decide)
  exact ⟨N, fun n hn => (h n hn).trans (by decide)⟩

-- the same run, executed; with too little fuel it does not end
example : sumInts { exSum [.preferAligned] [0, 11] .i32 .i32 11 with trans := joint (progOp 1 1 0 (euclid i32) 10) } gcdMem (-7) = .ok 24 := by
  decide +kernel
example : sumInts { exSum [.preferAligned] [0, 11] .i32 .i32 11 with trans := joint (progOp 1 1 0 (euclid i32) 1) } gcdMem (-7) = .ub .diverge := by
  decide +kernel

example {n : Nat} {v : Int}
    (h : sumInts { exSum [.preferAligned] [0, 11] .i32 .i32 11 with trans := joint (progOp 1 1 0 (euclid i32) n) } gcdMem (-7) = .ok v) :=
  sum_prog_sound (ts := [i32]) (idle := False) (p := euclid i32) gcdOk (by decide) (by decide)
    (fun t' h => by
      have : t' = i32 := by simpa [exSum] using h
      subst this
      exact ⟨valid32, by decide⟩)
    (by simp [exSum, euclid, euclidBody, Typed, MkTyped, ExTyped, valid32]) rfl (Or.inr ⟨trivial, 0, rfl, by simp [euclidBody, MaskedBy]⟩)
    (init := -7) (by decide) h

-- a constant evaluation that overflows although the sum of all is a value of the type, and one that does not
private def clampMem : List Int := [2147483647, 1, -3]
private def constSum (init : Int) (n : Nat) : Outcome Int :=
  sumInts { exSum [] [0] .i32 .i32 3 with e := { exampleEnv with constEval := true }, trans := joint (progOp 0 0 0 (clampNeg i32) n) } clampMem init
example : ∃ N, ∀ n, N ≤ n → constSum 5 n = .ub .overflow ∧ constSum (-2000) n = .ok 2147481648 := by
  have key : ∀ init : Int, i32.Has init → _ := fun init hi => sum_prog_const (R := { exSum [] [0] .i32 .i32 3 with e := { exampleEnv with constEval := true } })
    (mem := clampMem) (ty := i32) (ts := []) (nm := 0) (out := 0) (p := clampNeg i32) ⟨by decide, by decide⟩ rfl rfl rfl (by decide) rfl (by decide)
    (by decide)
    (fun t' h => by
      have : t' = i32 := by simpa [exSum] using h
      subst this
      exact ⟨valid32, by decide⟩)
    (by simp [exSum, clampNeg, Typed, MkTyped, ExTyped, valid32]) rfl (ys := [2147483647, 1, 0]) rfl
    (fun i hi => by
      match i, hi with
      | 0, _ => exact clampNeg_value 2147483647
      | 1, _ => exact clampNeg_value 1
      | 2, _ => exact clampNeg_value (-3)) hi
  obtain ⟨N, hN⟩ := key 5 (by decide)
  obtain ⟨M, hM⟩ := key (-2000) (by decide)
  refine ⟨N + M, fun n hn => ⟨(hN n (by omega)).2 ⟨1, by decide, by decide⟩, ?_⟩⟩
  exact ((hM n (by omega)).1 (by decide)).trans (by decide)

-- forty bytes, clamped (which changes nothing in an unsigned type)
example : ∃ N, ∀ n, N ≤ n → sumInts { exSum [] [0] .u8 .u8 40 with trans := joint (progOp 0 0 0 (clampNeg u8) n) } (List.replicate 40 255) 0 =
    .ok 216 := by
  obtain ⟨N, h⟩ := sum_prog_wraps (ts := []) (nm := 0) (out := 0) (p := clampNeg u8)
    (exSum_ok (pol := []) (ins := [0]) (n := 40) (t := .u8) (mem := List.replicate 40 255) ⟨[], by decide⟩ (by decide) (by decide) (by decide)
      (by decide +kernel) (by decide))
    (Or.inr (by decide)) (by decide +kernel)
    (fun t' h => by
      have : t' = u8 := by simpa [exSum] using h
      subst this
      exact ⟨valid8, by decide⟩)
    (by simp [exSum, clampNeg, Typed, MkTyped, ExTyped, valid8]) rfl (ys := List.replicate 40 255) rfl
    (fun i hi => by
      have hi' : i < 40 := by simpa using hi
      have : inputsAt (exSum [] [0] .u8 .u8 40) (List.replicate 40 255) i = [255] := by
        have h : (List.replicate 40 (255 : Int))[0 + i]? = some 255 := by rw [List.getElem?_replicate, if_pos (by omega)]
        change [0].filterMap (fun a => (List.replicate 40 (255 : Int))[a + i]?) = _
        rw [List.filterMap_cons_some (f := fun a => (List.replicate 40 (255 : Int))[a + i]?) h, List.filterMap_nil]
      rw [this, List.getElem_replicate]
      exact clampNeg_value 255)
    (init := 0) (by decide)
  exact ⟨N, fun n hn => (h n hn).trans (by decide +kernel)⟩

end Vir
