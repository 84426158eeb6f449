import Verif.Spec.IntHReduce
import Verif.Spec.IntReduce
import Verif.Spec.Mask
import Verif.Lemmas.SimdReduce
import Verif.Lemmas.LaneOps
import Verif.Lemmas.SimdExpr
import Mathlib.Data.List.Perm.Basic

namespace Vir.Simd
open Spec

variable {t : IntTy} {o : RedOp}

theorem prod_append' (xs ys : List Int) : (xs ++ ys).prod = xs.prod * ys.prod := by
  induction xs with
  | nil => simp
  | cons x xs ih => simp [ih, Int.mul_assoc]

theorem prod_perm {xs ys : List Int} (h : xs.Perm ys) : xs.prod = ys.prod := by
  induction h with
  | nil => rfl
  | cons x _ ih => simp [ih]
  | swap x y l => simp [Int.mul_left_comm]
  | trans _ _ h1 h2 => exact h1.trans h2

theorem sum_perm' {xs ys : List Int} (h : xs.Perm ys) : xs.sum = ys.sum := by
  induction h with
  | nil => rfl
  | cons x _ ih => simp [ih]
  | swap x y l => simp; omega
  | trans _ _ h1 h2 => exact h1.trans h2

theorem isReduction_has {xs : List Int} {r : Int} (h : IsReduction t o xs r) : t.Has r := by
  cases o <;> exact h.1

theorem isReduction_perm {xs ys : List Int} (hp : xs.Perm ys) {r : Int} (h : IsReduction t o xs r) : IsReduction t o ys r := by
  cases o with
  | plus => simpa only [IsReduction, sum_perm' hp] using h
  | multiplies => simpa only [IsReduction, prod_perm hp] using h
  | bitAnd => simpa only [IsReduction, hp.mem_iff] using h
  | bitOr => simpa only [IsReduction, hp.mem_iff] using h
  | bitXor => simpa only [IsReduction, hp.countP_eq] using h

theorem isReduction_single {x : Int} (h : t.Has x) : IsReduction t o [x] x := by
  cases o with
  | plus => exact ⟨h, by simp⟩
  | multiplies => exact ⟨h, by simp⟩
  | bitAnd => exact ⟨h, by simp⟩
  | bitOr => exact ⟨h, by simp⟩
  | bitXor =>
    refine ⟨h, fun j _ => ?_⟩
    cases hb : bitOf x j <;> simp [hb]

theorem isReduction_node {xs ys : List Int} {a b c : Int} (ha : IsReduction t o xs a) (hb : IsReduction t o ys b)
    (hc : IsResult t o.binOp a b c) : IsReduction t o (xs ++ ys) c := by
  cases o with
  | plus =>
    refine ⟨hc.1, ?_⟩
    obtain ⟨p, hp⟩ := ha.2
    obtain ⟨q, hq⟩ := hb.2
    obtain ⟨s, hs⟩ := hc.2
    refine ⟨p + q + s, ?_⟩
    rw [List.sum_append, Int.mul_add, Int.mul_add, ← hp, ← hq, ← hs]
    omega
  | multiplies =>
    refine ⟨hc.1, ?_⟩
    obtain ⟨p, hp⟩ := ha.2
    obtain ⟨q, hq⟩ := hb.2
    obtain ⟨s, hs⟩ := hc.2
    refine ⟨p * b + xs.prod * q + s, ?_⟩
    rw [prod_append', Int.mul_add, Int.mul_add, ← Int.mul_assoc, ← hp, ← Int.mul_assoc, Int.mul_comm _ xs.prod, Int.mul_assoc, ← hq, ← hs]
    rw [Int.sub_mul, Int.mul_sub]
    omega
  | bitAnd =>
    refine ⟨hc.1, fun j hj => ?_⟩
    rw [hc.2 j hj, Bool.and_eq_true, ha.2 j hj, hb.2 j hj]
    simp only [List.mem_append]
    exact ⟨fun h x hx => hx.elim (h.1 x) (h.2 x), fun h => ⟨fun x hx => h x (.inl hx), fun x hx => h x (.inr hx)⟩⟩
  | bitOr =>
    refine ⟨hc.1, fun j hj => ?_⟩
    rw [hc.2 j hj, Bool.or_eq_true, ha.2 j hj, hb.2 j hj]
    simp only [List.mem_append]
    exact ⟨fun h => h.elim (fun ⟨x, h1, h2⟩ => ⟨x, .inl h1, h2⟩) (fun ⟨x, h1, h2⟩ => ⟨x, .inr h1, h2⟩),
      fun ⟨x, h1, h2⟩ => h1.elim (fun h1 => .inl ⟨x, h1, h2⟩) (fun h1 => .inr ⟨x, h1, h2⟩)⟩
  | bitXor =>
    refine ⟨hc.1, fun j hj => ?_⟩
    have h1 := ha.2 j hj
    have h2 := hb.2 j hj
    rw [hc.2 j hj, List.countP_append]
    cases h3 : bitOf a j <;> cases h4 : bitOf b j <;> simp only [h3, h4] at h1 h2 <;> simp at h1 h2 ⊢ <;> omega

theorem isReduction_unique (ht : 0 < t.bits) {xs : List Int} {r s : Int} (h : IsReduction t o xs r) (h' : IsReduction t o xs s) : r = s := by
  cases o with
  | plus => exact isWrapped_unique ht h h'
  | multiplies => exact isWrapped_unique ht h h'
  | bitAnd =>
    exact SimdExpr.result_unique ht (op := .and) (a := r) (b := r) ⟨h.1, by simp⟩
      ⟨h'.1, fun j hj => by rw [Bool.and_self, Bool.eq_iff_iff, h.2 j hj, h'.2 j hj]⟩
  | bitOr =>
    exact SimdExpr.result_unique ht (op := .and) (a := r) (b := r) ⟨h.1, by simp⟩
      ⟨h'.1, fun j hj => by rw [Bool.and_self, Bool.eq_iff_iff, h.2 j hj, h'.2 j hj]⟩
  | bitXor =>
    exact SimdExpr.result_unique ht (op := .and) (a := r) (b := r) ⟨h.1, by simp⟩
      ⟨h'.1, fun j hj => by rw [Bool.and_self, Bool.eq_iff_iff, h.2 j hj, h'.2 j hj]⟩

theorem eval_dich (t : IntTy) (o : RedOp) (a b : Int) :
    (∃ c, o.binOp.eval t a b = .ok c) ∨ o.binOp.eval t a b = .ub .overflow := by
  cases o <;> simp only [RedOp.binOp, BinOp.eval, BinOp.evalIn, IntTy.arith]
  · split
    · split
      · exact .inl ⟨_, rfl⟩
      · exact .inr rfl
    · exact .inl ⟨_, rfl⟩
  · split
    · split
      · exact .inl ⟨_, rfl⟩
      · exact .inr rfl
    · exact .inl ⟨_, rfl⟩
  · exact .inl ⟨_, rfl⟩
  · exact .inl ⟨_, rfl⟩
  · exact .inl ⟨_, rfl⟩

theorem eval_defined (hv : ValidTy t) {a b : Int} (ha : t.Has a) (hb : t.Has b) (h : ¬ IsUndefined t o.binOp a b) :
    ∃ c, o.binOp.eval t a b = .ok c ∧ IsResult t o.binOp a b c ∧ t.Has c :=
  eval_spec t hv o.binOp a b ha (fun _ _ => hb) h

theorem eval_inv (hv : ValidTy t) {a b c : Int} (ha : t.Has a) (hb : t.Has b) (h : o.binOp.eval t a b = .ok c) :
    ¬ IsUndefined t o.binOp a b ∧ IsResult t o.binOp a b c ∧ t.Has c := by
  have hn : ¬ IsUndefined t o.binOp a b := fun hu => by
    obtain ⟨u, e⟩ := eval_ub t hv o.binOp a b ha (fun _ _ => hb) hu
    rw [h] at e; cases e
  obtain ⟨c', h1, h2, h3⟩ := eval_defined hv ha hb hn
  rw [h] at h1
  cases h1
  exact ⟨hn, h2, h3⟩

/-! ### the masked reduction -/

/-- The loop of the masked reduction over the selected lanes. -/
def foldE (t : IntTy) (op : BinOp) : Int → List Int → Outcome Int
  | a, [] => .ok a
  | a, x :: xs => do foldE t op (← op.eval t a x) xs

theorem forUp_foldE (op : BinOp) (k : List Bool) (v : List Int) (hl : k.length = v.length) (n : Nat) :
    ∀ (i : Nat) (a : Int), i + n = v.length →
      forUp (fun i r => do if ← at' k i then op.eval t r (← at' v i) else .ok r) n i a =
        foldE t op a (selected (k.drop i) (v.drop i)) := by
  induction n with
  | zero =>
    intro i a hi
    have : v.drop i = [] := List.drop_eq_nil_of_le (by omega)
    simp [forUp, this, selected, foldE]
  | succ n ih =>
    intro i a hi
    have hv : i < v.length := by omega
    have hk : i < k.length := by omega
    rw [forUp, at'_eq hk, at'_eq hv]
    simp only [Outcome.bind_ok]
    rw [List.drop_eq_getElem_cons hv, List.drop_eq_getElem_cons hk]
    cases hb : k[i] with
    | true =>
      have : selected (true :: k.drop (i + 1)) (v[i] :: v.drop (i + 1)) = v[i] :: selected (k.drop (i + 1)) (v.drop (i + 1)) := by
        simp only [selected, List.zip_cons_cons, List.filterMap_cons, if_true]
      rw [this]
      simp only [if_true, foldE]
      congr 1
      funext r
      exact ih (i + 1) r (by omega)
    | false =>
      have : selected (false :: k.drop (i + 1)) (v[i] :: v.drop (i + 1)) = selected (k.drop (i + 1)) (v.drop (i + 1)) := by
        simp only [selected, List.zip_cons_cons, List.filterMap_cons, Bool.false_eq_true, if_false]
      rw [this]
      simp only [Bool.false_eq_true, if_false, Outcome.bind_ok]
      exact ih (i + 1) a (by omega)

theorem reduceMaskedInt_eq (op : BinOp) (k : List Bool) (v : List Int) (hl : k.length = v.length) (a : Int) :
    reduceMaskedInt t op k v a = foldE t op a (selected k v) := by
  unfold reduceMaskedInt
  rw [anyOf_eq]
  simp only [Outcome.bind_ok]
  by_cases hany : true ∈ k
  · rw [if_pos (by simpa using hany), forUp_foldE op k v hl v.length 0 a (by omega)]
    rfl
  · rw [if_neg (by simpa using hany)]
    have : selected k v = [] := by
      unfold selected
      rw [List.filterMap_eq_nil_iff]
      rintro ⟨b, x⟩ hb
      have := (List.of_mem_zip hb).1
      cases b with
      | true => exact absurd this hany
      | false => rfl
    rw [this]; rfl

theorem selected_has {k : List Bool} {v : List Int} (h : LanesOf t v) : LanesOf t (selected k v) := by
  intro x hx
  unfold selected at hx
  rw [List.mem_filterMap] at hx
  obtain ⟨⟨b, y⟩, h1, h2⟩ := hx
  cases b with
  | true =>
    simp only [if_true, Option.some.injEq] at h2
    exact h2 ▸ h _ (List.of_mem_zip h1).2
  | false => simp at h2

theorem foldE_dich (a : Int) (xs : List Int) : (∃ c, foldE t o.binOp a xs = .ok c) ∨ foldE t o.binOp a xs = .ub .overflow := by
  induction xs generalizing a with
  | nil => exact .inl ⟨a, rfl⟩
  | cons x xs ih =>
    simp only [foldE]
    rcases eval_dich t o a x with ⟨c, h⟩ | h
    · rw [h]; exact ih c
    · rw [h]; exact .inr rfl

theorem foldE_value (hv : ValidTy t) {a c : Int} {pre xs : List Int} (ha : IsReduction t o pre a) (hx : LanesOf t xs)
    (h : foldE t o.binOp a xs = .ok c) : IsReduction t o (pre ++ xs) c := by
  induction xs generalizing a pre with
  | nil => cases h; simpa using ha
  | cons x xs ih =>
    have hx1 : t.Has x := hx x (by simp)
    simp only [foldE] at h
    rcases eval_dich t o a x with ⟨d, hd⟩ | hd
    · rw [hd, Outcome.bind_ok] at h
      have := ih (isReduction_node ha (isReduction_single hx1) (eval_inv hv (isReduction_has ha) hx1 hd).2.1)
        (fun y hy => hx y (by simp [hy])) h
      simpa using this
    · rw [hd] at h; cases h

/-- The fold is defined exactly if every step is. -/
theorem foldE_defined (hv : ValidTy t) {a : Int} {pre xs : List Int} (ha : IsReduction t o pre a) (hx : LanesOf t xs) :
    (∃ c, foldE t o.binOp a xs = .ok c) ↔
      ∀ p x, p ++ [x] <+: xs → ∀ b, IsReduction t o (pre ++ p) b → ¬ IsUndefined t o.binOp b x := by
  induction xs generalizing a pre with
  | nil =>
    refine ⟨fun _ p x hp => ?_, fun _ => ⟨a, rfl⟩⟩
    have := hp.length_le
    simp at this
  | cons x xs ih =>
    have hx1 : t.Has x := hx x (by simp)
    have hxs : LanesOf t xs := fun y hy => hx y (by simp [hy])
    have ha1 := isReduction_has ha
    simp only [foldE]
    constructor
    · rintro ⟨c, hc⟩ p y hp b hb
      rcases eval_dich t o a x with ⟨d, hd⟩ | hd
      · rw [hd, Outcome.bind_ok] at hc
        obtain ⟨h1, h2, h3⟩ := eval_inv hv ha1 hx1 hd
        cases p with
        | nil =>
          simp only [List.nil_append, List.append_nil] at hp hb
          obtain ⟨rfl, _⟩ := List.cons_prefix_cons.1 hp
          rw [isReduction_unique hv.1 hb ha]
          exact h1
        | cons q p =>
          simp only [List.cons_append] at hp
          obtain ⟨rfl, hp'⟩ := List.cons_prefix_cons.1 hp
          exact (ih (isReduction_node ha (isReduction_single hx1) h2) hxs).1 ⟨c, hc⟩ p y hp' b (by simpa using hb)
      · rw [hd] at hc; cases hc
    · intro h
      have h0 := h [] x (by simp) a (by simpa using ha)
      obtain ⟨d, h1, h2, h3⟩ := eval_defined hv ha1 hx1 h0
      rw [h1, Outcome.bind_ok]
      exact (ih (isReduction_node ha (isReduction_single hx1) h2) hxs).2 fun p y hp b hb =>
        h (x :: p) y (by simpa using hp) b (by simpa using hb)

/-! ### the unmasked reduction -/

/-- The operation on lanes that may be undefined. -/
abbrev opE (t : IntTy) (o : RedOp) : Outcome Int → Outcome Int → Outcome Int := strict2 (o.binOp.eval t)

/-- A value or an overflow. -/
def OkOrOverflow (x : Outcome Int) : Prop := (∃ a, x = .ok a) ∨ x = .ub .overflow

theorem opE_closed {x y : Outcome Int} (hx : OkOrOverflow x) (hy : OkOrOverflow y) : OkOrOverflow (opE t o x y) := by
  rcases hx with ⟨a, rfl⟩ | rfl
  · rcases hy with ⟨b, rfl⟩ | rfl
    · exact eval_dich t o a b
    · exact .inr rfl
  · exact .inr rfl

theorem opE_overflow {x y : Outcome Int} (hx : OkOrOverflow x) (h : x = .ub .overflow ∨ y = .ub .overflow) :
    opE t o x y = .ub .overflow := by
  rcases hx with ⟨a, rfl⟩ | rfl
  · rcases h with h | rfl
    · cases h
    · rfl
  · rfl

theorem gsum_strict {xs : List (Outcome Int)} {x : Outcome Int} (h : GSum (opE t o) xs x) (hx : ∀ y ∈ xs, OkOrOverflow y) :
    OkOrOverflow x ∧ (.ub .overflow ∈ xs → x = .ub .overflow) := by
  induction h with
  | single x =>
    refine ⟨hx x (by simp), fun h => ?_⟩
    simp only [List.mem_singleton] at h
    exact h.symm
  | @node xs ys a b h1 h2 ih1 ih2 =>
    obtain ⟨i1, i2⟩ := ih1 fun y hy => hx y (by simp [hy])
    obtain ⟨j1, j2⟩ := ih2 fun y hy => hx y (by simp [hy])
    refine ⟨opE_closed i1 j1, fun h => ?_⟩
    rcases List.mem_append.1 h with h | h
    · exact opE_overflow i1 (.inl (i2 h))
    · exact opE_overflow i1 (.inr (j2 h))
  | perm hp _ ih =>
    obtain ⟨i1, i2⟩ := ih fun y hy => hx y (hp.mem_iff.1 hy)
    exact ⟨i1, fun h => i2 (hp.mem_iff.2 h)⟩

theorem binary_dich (l r : List Int) (h : l.length = r.length) :
    (∃ w, binary t o.binOp l r = .ok w ∧ List.zipWith (opE t o) (l.map .ok) (r.map .ok) = w.map .ok) ∨
    (binary t o.binOp l r = .ub .overflow ∧ .ub .overflow ∈ List.zipWith (opE t o) (l.map .ok) (r.map .ok)) := by
  have hf : ∀ i (hi : i < l.length), (do let a ← at' l i; let b ← at' r i; o.binOp.eval t a b : Outcome Int) =
      o.binOp.eval t l[i] (r[i]'(by omega)) := fun i hi => by
    rw [at'_eq hi, at'_eq (show i < r.length by omega)]; rfl
  by_cases hall : ∀ i (hi : i < l.length), ∃ c, o.binOp.eval t l[i] (r[i]'(by omega)) = .ok c
  · left
    obtain ⟨w, h1, h2, h3⟩ := gen_choose (n := l.length) (f := fun i => do let a ← at' l i; let b ← at' r i; o.binOp.eval t a b)
      (P := fun i c => ∀ hi : i < l.length, o.binOp.eval t l[i] (r[i]'(by omega)) = .ok c) (fun i hi => by
        obtain ⟨c, hc⟩ := hall i hi
        exact ⟨c, by rw [hf i hi, hc], fun _ => hc⟩)
    refine ⟨w, h1, List.ext_getElem (by simp [h2, ← h]) fun i hi1 hi2 => ?_⟩
    simp only [List.length_map] at hi2
    have hil : i < l.length := by omega
    simp only [List.getElem_zipWith, List.getElem_map]
    exact h3 i w[i] (List.getElem?_eq_getElem hi2) hil
  · right
    simp only [not_forall] at hall
    obtain ⟨i, hi, hn⟩ := hall
    have hu : o.binOp.eval t l[i] (r[i]'(by omega)) = .ub .overflow := (eval_dich t o _ _).resolve_left hn
    refine ⟨gen_ub (k := i) (fun j hj => ?_) hi (by rw [hf i hi, hu]), ?_⟩
    · rw [hf j hj]; exact eval_dich t o _ _
    · refine List.mem_iff_getElem.2 ⟨i, by simp; omega, ?_⟩
      simp only [List.getElem_zipWith, List.getElem_map]
      exact hu

/-- The sum of lanes that may be undefined, in the order of the model of the generic `reduce`. -/
abbrev lazyF (t : IntTy) (o : RedOp) (fuel : Nat) (v : List (Outcome Int)) : Outcome (Outcome Int) :=
  reduceF (fun l r => .ok (List.zipWith (opE t o) l r)) (opE t o) fuel v

theorem lazy_gsum (fuel : Nat) (v : List (Outcome Int)) (h0 : v ≠ []) (hf : v.length ≤ fuel) (h64 : v.length < 2 ^ 64) :
    ∃ x, lazyF t o fuel v = .ok x ∧ GSum (opE t o) v x := reduceF_gsum (fun _ _ _ => rfl) fuel v h0 hf h64

theorem loop_lazy (x : Int) (xs : List Int) :
    forUp (fun i r => do o.binOp.eval t r (← at' (x :: xs) i)) xs.length 1 x = (xs.map Outcome.ok).foldl (opE t o) (.ok x) := by
  suffices h : ∀ (n i : Nat) (a : Int), i + n = xs.length →
      forUp (fun i r => do o.binOp.eval t r (← at' (x :: xs) i)) n (i + 1) a = ((xs.drop i).map Outcome.ok).foldl (opE t o) (.ok a) by
    simpa using h xs.length 0 x (by omega)
  intro n
  induction n with
  | zero =>
    intro i a hi
    simp [forUp, List.drop_eq_nil_of_le (show xs.length ≤ i by omega)]
  | succ n ih =>
    intro i a hi
    have hlt : i < xs.length := by omega
    rw [forUp, at'_eq (show i + 1 < (x :: xs).length by simp; omega), List.drop_eq_getElem_cons hlt]
    simp only [Outcome.bind_ok, List.getElem_cons_succ, List.map_cons, List.foldl_cons]
    have he : opE t o (.ok a) (.ok xs[i]) = o.binOp.eval t a xs[i] := rfl
    rw [he]
    rcases eval_dich t o a xs[i] with ⟨c, hc⟩ | hc
    · rw [hc]; exact ih (i + 1) c (by omega)
    · rw [hc]
      have : ∀ l : List (Outcome Int), l.foldl (opE t o) (.ub .overflow) = .ub .overflow := by
        intro l
        induction l with
        | nil => rfl
        | cons y l ih => exact ih
      rw [this]; rfl

theorem bitFloor_ok {n : Nat} (h0 : 0 < n) (h64 : n < 2 ^ 64) : ∃ m, BitUtils.bitFloor n = .ok m ∧ 0 < m ∧ m ≤ n ∧ n < 2 * m := by
  obtain ⟨k, hk1, hk2⟩ := BitUtils.exists_bracket h0
  have hk : k < 64 := (Nat.pow_lt_pow_iff_right (a := 2) (by decide)).1 (by omega)
  refine ⟨2 ^ k, BitUtils.bitFloor_pow hk1 hk2 hk, Nat.two_pow_pos k, hk1, ?_⟩
  rw [Nat.pow_succ] at hk2; omega

theorem map_ok_mem {v : List Int} : ∀ y ∈ v.map Outcome.ok, OkOrOverflow y := by
  intro y hy
  obtain ⟨a, _, rfl⟩ := List.mem_map.1 hy
  exact .inl ⟨a, rfl⟩

theorem reduceIntF_lazy (fuel : Nat) (v : List Int) (h0 : v ≠ []) (hf : v.length ≤ fuel) (h64 : v.length < 2 ^ 64) :
    lazyF t o fuel (v.map .ok) = .ok (reduceIntF t o.binOp fuel v) := by
  induction fuel generalizing v with
  | zero => exact absurd (List.length_eq_zero_iff.1 (by omega)) h0
  | succ fuel ih =>
    unfold lazyF reduceF reduceIntF
    simp only [List.length_map]
    by_cases hn : v.length > 3
    · rw [if_pos hn, if_pos hn]
      obtain ⟨n2, e, hpos, hle, hlt⟩ := bitFloor_ok (n := v.length / 2) (by omega) (by omega)
      rw [e]
      simp only [Outcome.bind_ok]
      have hlr : (v.take n2).length = ((v.drop n2).take n2).length := by simp; omega
      have hl1 : (v.take n2).length = n2 := by simp; omega
      have hzl : (List.zipWith (opE t o) ((v.take n2).map .ok) (((v.drop n2).take n2).map .ok)).length = n2 := by simp; omega
      have hzc : ∀ y ∈ List.zipWith (opE t o) ((v.take n2).map .ok) (((v.drop n2).take n2).map .ok), OkOrOverflow y := by
        intro y hy
        obtain ⟨i, hi, rfl⟩ := List.mem_iff_getElem.1 hy
        simp only [List.getElem_zipWith, List.getElem_map]
        exact eval_dich t o _ _
      -- the first half of the recursion
      have hA : lazyF t o fuel (List.zipWith (opE t o) ((v.take n2).map .ok) (((v.drop n2).take n2).map .ok)) =
          .ok (do reduceIntF t o.binOp fuel (← binary t o.binOp (v.take n2) ((v.drop n2).take n2))) := by
        rcases binary_dich (t := t) (o := o) _ _ hlr with ⟨w, h1, h2⟩ | ⟨h1, h2⟩
        · rw [h1, h2]
          have hwl : w.length = n2 := by rw [← hzl, h2]; simp
          exact ih w (by rw [← List.length_pos_iff]; omega) (by omega) (by omega)
        · rw [h1]
          obtain ⟨x, hx1, hx2⟩ := lazy_gsum (t := t) (o := o) fuel _ (by rw [← List.length_pos_iff]; omega) (by omega)
            (show (List.zipWith (opE t o) ((v.take n2).map .ok) (((v.drop n2).take n2).map .ok)).length < 2 ^ 64 by omega)
          rw [hx1, (gsum_strict hx2 hzc).2 h2]
          rfl
      by_cases hr : v.length - 2 * n2 > 0
      · rw [if_pos hr, if_pos hr, splitSizes_eq (by simp; omega), splitSizes_eq (by simp; omega)]
        simp only [cut, Outcome.bind_ok, ← List.map_drop, ← List.map_take]
        have hB := ih (((v.drop n2).drop n2).take (v.length - 2 * n2))
          (by rw [← List.length_pos_iff]; simp; omega) (by simp; omega) (by simp; omega)
        unfold lazyF at hA hB
        rw [hA]
        simp only [Outcome.bind_ok]
        rw [hB]
        simp only [Outcome.bind_ok]
        rcases binary_dich (t := t) (o := o) _ _ hlr with ⟨w, h1, h2⟩ | ⟨h1, h2⟩
        · rw [h1]; rfl
        · rw [h1]; rfl
      · rw [if_neg hr, if_neg hr, splitSizes_eq (by simp; omega), splitSizes_eq (by simp; omega)]
        simp only [cut, Outcome.bind_ok, ← List.map_drop, ← List.map_take]
        unfold lazyF at hA
        rw [hA]
    · rw [if_neg hn, if_neg hn]
      cases v with
      | nil => exact absurd rfl h0
      | cons x xs =>
        rw [List.map_cons, at'_eq (show 0 < (Outcome.ok x :: xs.map Outcome.ok).length by simp), at'_eq (show 0 < (x :: xs).length by simp)]
        simp only [Outcome.bind_ok, List.getElem_cons_zero, List.length_cons, Nat.add_sub_cancel]
        have := reduceLoop_eq (opE t o) (.ok x) (xs.map .ok)
        rw [List.length_map] at this
        rw [this, loop_lazy]

theorem reduceInt_gsum (v : List Int) (h0 : v ≠ []) (h64 : v.length < 2 ^ 64) : GSum (opE t o) (v.map .ok) (reduceInt t o v) := by
  obtain ⟨x, h1, h2⟩ := lazy_gsum (t := t) (o := o) v.length (v.map .ok) (by simpa using h0) (by simp) (by simpa using h64)
  rw [reduceIntF_lazy _ _ h0 (Nat.le_refl _) h64] at h1
  cases h1
  exact h2

private theorem map_ok_append {xs ys : List (Outcome Int)} {zs : List Int} (h : xs ++ ys = zs.map .ok) :
    ∃ a b, xs = a.map .ok ∧ ys = b.map .ok ∧ zs = a ++ b := by
  obtain ⟨a, b, h1, h2, h3⟩ := List.append_eq_map_iff.1 h
  exact ⟨a, b, h2.symm, h3.symm, h1⟩

private theorem perm_map_ok {xs : List (Outcome Int)} {zs : List Int} (h : xs.Perm (zs.map .ok)) :
    ∃ ys : List Int, xs = ys.map .ok ∧ ys.Perm zs := by
  have : ∀ x ∈ xs, ∃ a, x = Outcome.ok a := by
    intro x hx
    have := h.mem_iff.1 hx
    simp only [List.mem_map] at this
    obtain ⟨a, _, h2⟩ := this
    exact ⟨a, h2.symm⟩
  obtain ⟨ys, rfl⟩ : ∃ ys : List Int, xs = ys.map .ok := by
    clear h
    induction xs with
    | nil => exact ⟨[], rfl⟩
    | cons x xs ih =>
      obtain ⟨a, rfl⟩ := this x (by simp)
      obtain ⟨ys, rfl⟩ := ih (fun y hy => this y (by simp [hy]))
      exact ⟨a :: ys, rfl⟩
  refine ⟨ys, rfl, ?_⟩
  have := h.map (fun o : Outcome Int => match o with | .ok a => a | _ => 0)
  simpa [List.map_map, Function.comp_def] using this

theorem gsum_reduction (hv : ValidTy t) {xs : List (Outcome Int)} {x : Outcome Int} (h : GSum (opE t o) xs x) :
    ∀ {zs : List Int}, xs = zs.map .ok → LanesOf t zs → ∀ w, x = .ok w → IsReduction t o zs w := by
  induction h with
  | single x =>
    intro zs hz hh w hw
    subst hw
    have : zs = [w] := by
      cases zs with
      | nil => simp at hz
      | cons z zs => simpa using hz.symm
    subst this
    exact isReduction_single (hh w (by simp))
  | @node xs ys a b h1 h2 ih1 ih2 =>
    intro zs hz hh w hw
    obtain ⟨as, bs, e1, e2, rfl⟩ := map_ok_append hz
    rcases (gsum_strict h1 (e1 ▸ map_ok_mem)).1 with ⟨p, rfl⟩ | rfl
    · rcases (gsum_strict h2 (e2 ▸ map_ok_mem)).1 with ⟨q, rfl⟩ | rfl
      · have i1 := ih1 e1 (fun z hz => hh z (by simp [hz])) p rfl
        have i2 := ih2 e2 (fun z hz => hh z (by simp [hz])) q rfl
        exact isReduction_node i1 i2 (eval_inv hv (isReduction_has i1) (isReduction_has i2) hw).2.1
      · cases hw
    · cases hw
  | @perm xs ys a hp _ ih =>
    intro zs hz hh w hw
    subst hz
    obtain ⟨ys', rfl, h2⟩ := perm_map_ok hp
    exact isReduction_perm h2 (ih rfl (fun z hz => hh z (h2.mem_iff.1 hz)) w hw)

/-- A generalized sum is defined if combining the reductions of disjoint parts of the list always is. -/
theorem gsum_defined (hv : ValidTy t) {xs : List (Outcome Int)} {x : Outcome Int} (h : GSum (opE t o) xs x) :
    ∀ {zs : List Int}, xs = zs.map .ok → LanesOf t zs →
      (∀ as bs a b, (as ++ bs).Subperm zs → IsReduction t o as a → IsReduction t o bs b → ¬ IsUndefined t o.binOp a b) → ∃ w, x = .ok w := by
  induction h with
  | single x =>
    intro zs hz hh _
    cases zs with
    | nil => simp at hz
    | cons z zs => simp only [List.map_cons, List.cons.injEq] at hz; exact ⟨z, hz.1⟩
  | @node xs ys a b h1 h2 ih1 ih2 =>
    intro zs hz hh hd
    obtain ⟨as, bs, e1, e2, rfl⟩ := map_ok_append hz
    obtain ⟨p, rfl⟩ := ih1 e1 (fun z hz => hh z (by simp [hz])) fun cs ds c d hs =>
      hd cs ds c d (hs.trans (List.sublist_append_left as bs).subperm)
    obtain ⟨q, rfl⟩ := ih2 e2 (fun z hz => hh z (by simp [hz])) fun cs ds c d hs =>
      hd cs ds c d (hs.trans (List.sublist_append_right as bs).subperm)
    have i1 := gsum_reduction hv h1 e1 (fun z hz => hh z (by simp [hz])) p rfl
    have i2 := gsum_reduction hv h2 e2 (fun z hz => hh z (by simp [hz])) q rfl
    obtain ⟨c, hc, _⟩ := eval_defined hv (isReduction_has i1) (isReduction_has i2) (hd as bs p q (List.Subperm.refl _) i1 i2)
    exact ⟨c, hc⟩
  | @perm xs ys a hp _ ih =>
    intro zs hz hh hd
    subst hz
    obtain ⟨ys', rfl, h2⟩ := perm_map_ok hp
    exact ih rfl (fun z hz => hh z (h2.mem_iff.1 hz)) fun as bs a b hs => hd as bs a b (hs.trans h2.subperm)

theorem neverOverflows_defined (hv : ValidTy t) (hn : NeverOverflows t o) {a b : Int} (ha : t.Has a) (hb : t.Has b) :
    ¬ IsUndefined t o.binOp a b := by
  cases o with
  | plus =>
    rintro ⟨h1, h2, _⟩
    rcases hn with hn | hn
    · rw [h1] at hn; cases hn
    · omega
  | multiplies =>
    rintro (⟨h1, h2, _⟩ | ⟨h1, h2⟩)
    · rcases hn with ⟨hn, _⟩ | hn | ⟨_, hn⟩
      · rw [h1] at hn; cases hn
      · omega
      · omega
    · have key : (a.natAbs ≤ 32768 ∧ b.natAbs ≤ 32768) := by
        rcases hn with ⟨_, hn⟩ | hn | ⟨hs, hn⟩
        · omega
        · have e1 : (2 : Int) ^ t.bits ≤ 2 ^ 15 := by exact_mod_cast Nat.pow_le_pow_right (by decide) hn
          have e2 := IntTy.two_pow_succ_pred hv.1
          unfold IntTy.Has IntTy.lowest IntTy.max at ha hb
          cases hs : t.signed <;> simp [hs] at ha hb <;> omega
        · have e1 : (2 : Int) ^ t.bits ≤ 2 ^ 16 := by exact_mod_cast Nat.pow_le_pow_right (by decide) hn
          have e2 := IntTy.two_pow_succ_pred hv.1
          unfold IntTy.Has IntTy.lowest IntTy.max at ha hb
          simp [hs] at ha hb
          omega
      have h3 : a * b ≤ (a * b).natAbs := Int.le_natAbs
      rw [Int.natAbs_mul] at h3
      have h4 := Nat.mul_le_mul key.1 key.2
      have : (((a.natAbs * b.natAbs : Nat)) : Int) ≤ ((32768 * 32768 : Nat) : Int) := by exact_mod_cast h4
      have e1 : ((32768 * 32768 : Nat) : Int) = 1073741824 := rfl
      have e2 : (2 : Int) ^ 31 = 2147483648 := rfl
      omega
  | bitAnd => exact id
  | bitOr => exact id
  | bitXor => exact id

theorem has_zero (t : IntTy) : t.Has 0 := by
  have h1 : (0 : Int) < 2 ^ (t.bits - 1) := Int.pow_pos (by decide)
  have h2 : (0 : Int) < 2 ^ t.bits := Int.pow_pos (by decide)
  unfold IntTy.Has IntTy.lowest IntTy.max
  cases t.signed <;> simp <;> omega

theorem has_one (h : 2 ≤ t.bits) : t.Has 1 := by
  have h1 : (2 : Int) ^ 1 ≤ 2 ^ (t.bits - 1) := by exact_mod_cast Nat.pow_le_pow_right (by decide) (show 1 ≤ t.bits - 1 by omega)
  have h2 := IntTy.two_pow_succ_pred (show 0 < t.bits by omega)
  unfold IntTy.Has IntTy.lowest IntTy.max
  cases t.signed <;> simp <;> omega

/-- The identity elements are the reductions of nothing. -/
theorem identity_reduction (hv : ValidTy t) (o : RedOp) : ∃ a, o.identity t = .ok a ∧ IsReduction t o [] a := by
  cases o with
  | plus => exact ⟨_, rfl, isWrapped_conv hv.1 0⟩
  | multiplies => exact ⟨_, rfl, isWrapped_conv hv.1 1⟩
  | bitAnd =>
    refine ⟨_, rfl, IntTy.has_conv t hv.1 _, fun j hj => ?_⟩
    simp only [List.not_mem_nil, false_implies, implies_true, iff_true]
    rw [IntTy.conv_conv hv.1 (IntTy.le_promote t), bitOf_congr hj (IntTy.conv_emod t _)]
    have : (-0 - 1 : Int) / 2 ^ j = -1 := by
      have h2 : (0 : Int) < 2 ^ j := Int.pow_pos (by decide)
      rw [show (-0 - 1 : Int) = -1 from rfl]
      refine (Int.ediv_emod_unique h2 (r := 2 ^ j - 1)).2 ⟨?_, ?_, ?_⟩ |>.1 <;> omega
    unfold bitOf
    rw [this]
    rfl
  | bitOr =>
    refine ⟨_, rfl, IntTy.has_conv t hv.1 _, fun j hj => ?_⟩
    rw [bitOf_congr hj (IntTy.conv_emod t _)]
    simp [bitOf]
  | bitXor =>
    refine ⟨_, rfl, IntTy.has_conv t hv.1 _, fun j hj => ?_⟩
    rw [bitOf_congr hj (IntTy.conv_emod t _)]
    simp [bitOf]

end Vir.Simd
