import Verif.Spec.IntReduce
import Verif.Spec.Reduce
import Verif.Lemmas.TransformReduceMain
import Verif.Lemmas.SimdReduce
import Mathlib.Data.List.Perm.Basic

namespace Vir
open Spec

variable {t : IntTy}

theorem conv_conv_add (t : IntTy) (a b : Int) : t.conv (t.conv a + t.conv b) = t.conv (a + b) := by
  unfold IntTy.conv
  split
  · simp
  · simp

theorem pow_split {n : Nat} (h : 0 < n) : (2 : Int) ^ n = 2 * 2 ^ (n - 1) := by
  obtain ⟨m, rfl⟩ : ∃ m, n = m + 1 := ⟨n - 1, by omega⟩
  rw [Int.pow_succ, Nat.add_sub_cancel]; omega

theorem conv_of_has (hb : 0 < t.bits) {x : Int} (h : t.Has x) : t.conv x = x := by
  unfold IntTy.Has IntTy.lowest IntTy.max at h
  unfold IntTy.conv
  split
  · rename_i hs
    simp only [hs, if_true] at h
    have := pow_split hb
    apply Int.bmod_eq_of_le
    · push_cast; omega
    · push_cast; omega
  · rename_i hs
    simp only [Bool.not_eq_true] at hs
    simp only [hs] at h
    exact Int.emod_eq_of_lt (by simpa using h.1) (by have := h.2; simp at this; omega)

theorem has_conv (hb : 0 < t.bits) (x : Int) : t.Has (t.conv x) := by
  unfold IntTy.Has IntTy.lowest IntTy.max IntTy.conv
  have h2 : (0 : Int) < 2 ^ t.bits := Int.pow_pos (by decide)
  split
  · have h1 := pow_split hb
    have h3 : 0 < 2 ^ t.bits := Nat.two_pow_pos _
    have := Int.le_bmod (x := x) h3
    have := Int.bmod_lt (x := x) h3
    push_cast at *
    constructor <;> omega
  · rename_i hs
    have h4 := Int.emod_nonneg x (b := 2 ^ t.bits) (by omega)
    have h5 := Int.emod_lt_of_pos x h2
    omega

theorem has_add_narrow (hb : 0 < t.bits) (ht : t.bits ≤ 16) {x y : Int} (hx : t.Has x) (hy : t.Has y) : IntTy.i32.Has (x + y) := by
  have e1 : (2 : Int) ^ t.bits ≤ 2 ^ 16 := by exact_mod_cast Nat.pow_le_pow_right (by decide) ht
  have e2 := pow_split hb
  have e3 : (2 : Int) ^ 16 = 65536 := rfl
  have e5 : IntTy.i32.lowest = -2147483648 := rfl
  have e6 : IntTy.i32.max = 2147483647 := rfl
  have key : ∀ z, t.Has z → -65536 ≤ z ∧ z ≤ 65536 := by
    intro z hz
    unfold IntTy.Has IntTy.lowest IntTy.max at hz
    cases hs : t.signed <;> simp [hs] at hz <;> omega
  have h1 := key x hx
  have h2 := key y hy
  unfold IntTy.Has
  rw [e5, e6]
  omega

/-- The sum of two values, whenever it is defined. -/
theorem add_ok {x y w : Int} (h : BinOp.eval t .add x y = .ok w) : w = t.conv (x + y) := by
  unfold BinOp.eval BinOp.evalIn IntTy.arith at h
  by_cases hs : t.promote.signed = true
  · by_cases hh : t.promote.Has (x + y)
    · simp only [hs, hh, if_true, Outcome.bind_ok, Outcome.ok.injEq] at h
      exact h.symm
    · simp [hs, hh] at h
  · simp only [hs, Bool.false_eq_true, if_false, Outcome.bind_ok, Outcome.ok.injEq] at h
    rw [← h]
    have hp : t.promote = t := by
      unfold IntTy.promote at hs ⊢
      split
      · rename_i h1; simp [h1, IntTy.i32] at hs
      · rfl
    rw [hp]
    have := conv_conv_add t (x + y) 0
    unfold IntTy.conv at *
    split <;> simp

theorem add_ub {x y : Int} (h : ∀ w, BinOp.eval t .add x y ≠ .ok w) : BinOp.eval t .add x y = .ub .overflow := by
  unfold BinOp.eval BinOp.evalIn IntTy.arith at *
  by_cases hs : t.promote.signed = true
  · by_cases hh : t.promote.Has (x + y)
    · simp only [hs, hh, if_true, Outcome.bind_ok] at h
      exact absurd rfl (h _)
    · simp [hs, hh]
  · simp only [hs, Bool.false_eq_true, if_false, Outcome.bind_ok] at h
    exact absurd rfl (h _)

theorem add_wraps (hw : WrapsAround t) {x y : Int} (hx : t.Has x) (hy : t.Has y) :
    BinOp.eval t .add x y = .ok (t.conv (x + y)) := by
  have : ∃ w, BinOp.eval t .add x y = .ok w := by
    unfold BinOp.eval BinOp.evalIn IntTy.arith IntTy.promote
    rcases hw with ⟨h1, h2⟩ | ⟨h1, h2⟩
    · have : ¬ t.bits < 32 := by omega
      simp [this, h1]
    · have h3 : t.bits < 32 := by omega
      have := has_add_narrow h1 h2 hx hy
      have h4 : IntTy.i32.signed = true := rfl
      simp [h3, this, h4]
  obtain ⟨w, h⟩ := this
  rw [h, add_ok h]

theorem add_fits (hs : t.signed = true) (hb : 32 ≤ t.bits) {x y : Int} (h : t.Has (x + y)) :
    BinOp.eval t .add x y = .ok (x + y) := by
  have h1 : ¬ t.bits < 32 := by omega
  unfold BinOp.eval BinOp.evalIn IntTy.arith IntTy.promote
  simp [h1, hs, h, conv_of_has (show 0 < t.bits by omega) h]

theorem plusOp_ok (a b : Int) : plusOp t (.ok a) (.ok b) = BinOp.eval t .add a b := rfl

theorem plusOp_inv {x y : Outcome Int} {w : Int} (h : plusOp t x y = .ok w) :
    ∃ a b, x = .ok a ∧ y = .ok b ∧ BinOp.eval t .add a b = .ok w := by
  cases x with
  | ok a =>
    cases y with
    | ok b => exact ⟨a, b, rfl, rfl, h⟩
    | ub r => simp [plusOp, strict2] at h
    | trap => simp [plusOp, strict2] at h
  | ub r => simp [plusOp, strict2] at h
  | trap => simp [plusOp, strict2] at h

private theorem map_ok_append {xs ys : List (Outcome Int)} {zs : List Int} (h : xs ++ ys = zs.map .ok) :
    ∃ a b, xs = a.map .ok ∧ ys = b.map .ok ∧ zs = a ++ b := by
  obtain ⟨a, b, h1, h2, h3⟩ := List.append_eq_map_iff.1 h
  exact ⟨a, b, h2.symm, h3.symm, h1⟩

private theorem perm_map_ok {xs : List (Outcome Int)} {zs : List Int} (h : xs.Perm (zs.map .ok)) :
    ∃ ys : List Int, xs = ys.map .ok ∧ ys.Perm zs := by
  have : ∀ x ∈ xs, ∃ a, x = Outcome.ok a := by
    intro x hx
    have := h.mem_iff.1 hx
    simp only [List.mem_map] at this
    obtain ⟨a, _, h2⟩ := this
    exact ⟨a, h2.symm⟩
  obtain ⟨ys, rfl⟩ : ∃ ys : List Int, xs = ys.map .ok := by
    clear h
    induction xs with
    | nil => exact ⟨[], rfl⟩
    | cons x xs ih =>
      obtain ⟨a, rfl⟩ := this x (by simp)
      obtain ⟨ys, rfl⟩ := ih (fun y hy => this y (by simp [hy]))
      exact ⟨a :: ys, rfl⟩
  refine ⟨ys, rfl, ?_⟩
  have := h.map (fun o : Outcome Int => match o with | .ok a => a | _ => 0)
  simpa [List.map_map, Function.comp_def] using this

private theorem sum_perm {xs ys : List Int} (h : xs.Perm ys) : xs.sum = ys.sum := by
  induction h with
  | nil => rfl
  | cons x _ ih => simp [ih]
  | swap x y l => simp; omega
  | trans _ _ h1 h2 => exact h1.trans h2

/-- Every defined generalized sum has the right value. -/
theorem gsum_value (hb : 0 < t.bits) {xs : List (Outcome Int)} {v : Outcome Int} (h : GSum (plusOp t) xs v) :
    ∀ {zs : List Int}, xs = zs.map .ok → (∀ z ∈ zs, t.Has z) → ∀ w, v = .ok w → w = t.conv zs.sum ∧ t.Has w := by
  induction h with
  | single x =>
    intro zs hz hh w hw
    subst hw
    cases zs with
    | nil => simp at hz
    | cons z zs =>
      simp only [List.map_cons, List.cons.injEq, Outcome.ok.injEq] at hz
      obtain ⟨rfl, h2⟩ := hz
      have : zs = [] := by simpa using h2.symm
      subst this
      simp only [List.sum_cons, List.sum_nil, Int.add_zero]
      exact ⟨(conv_of_has hb (hh w (by simp))).symm, hh w (by simp)⟩
  | @node xs ys a b h1 h2 ih1 ih2 =>
    intro zs hz hh w hw
    obtain ⟨as, bs, e1, e2, rfl⟩ := map_ok_append hz
    obtain ⟨p, q, rfl, rfl, hw'⟩ := plusOp_inv hw
    obtain ⟨i1, _⟩ := ih1 e1 (fun z hz => hh z (by simp [hz])) p rfl
    obtain ⟨i2, _⟩ := ih2 e2 (fun z hz => hh z (by simp [hz])) q rfl
    have := add_ok hw'
    rw [i1, i2, conv_conv_add] at this
    rw [List.sum_append]
    exact ⟨this, this ▸ has_conv hb _⟩
  | @perm xs ys a hp _ ih =>
    intro zs hz hh w hw
    subst hz
    obtain ⟨ys', rfl, h2⟩ := perm_map_ok hp
    obtain ⟨h3, h4⟩ := ih rfl (fun z hz => hh z (h2.mem_iff.1 hz)) w hw
    exact ⟨by rw [h3, sum_perm h2], h4⟩

theorem gsum_wraps (hw : WrapsAround t) {xs : List (Outcome Int)} {v : Outcome Int} (h : GSum (plusOp t) xs v) :
    ∀ {zs : List Int}, xs = zs.map .ok → (∀ z ∈ zs, t.Has z) → ∃ w, v = .ok w ∧ t.Has w := by
  have hb : 0 < t.bits := by rcases hw with ⟨_, h⟩ | ⟨h, _⟩ <;> omega
  induction h with
  | single x =>
    intro zs hz hh
    cases zs with
    | nil => simp at hz
    | cons z zs =>
      simp only [List.map_cons, List.cons.injEq] at hz
      exact ⟨z, hz.1, hh z (by simp)⟩
  | @node xs ys a b h1 h2 ih1 ih2 =>
    intro zs hz hh
    obtain ⟨as, bs, e1, e2, rfl⟩ := map_ok_append hz
    obtain ⟨p, rfl, hp⟩ := ih1 e1 (fun z hz => hh z (by simp [hz]))
    obtain ⟨q, rfl, hq⟩ := ih2 e2 (fun z hz => hh z (by simp [hz]))
    rw [plusOp_ok, add_wraps hw hp hq]
    exact ⟨_, rfl, has_conv hb _⟩
  | @perm xs ys a hp _ ih =>
    intro zs hz hh
    subst hz
    obtain ⟨ys', rfl, h2⟩ := perm_map_ok hp
    exact ih rfl (fun z hz => hh z (h2.mem_iff.1 hz))

theorem gsum_fits (hs : t.signed = true) (hb : 32 ≤ t.bits) {xs : List (Outcome Int)} {v : Outcome Int}
    (h : GSum (plusOp t) xs v) : ∀ {zs : List Int}, xs = zs.map .ok → SubSumsFit t zs → v = .ok zs.sum := by
  induction h with
  | single x =>
    intro zs hz hh
    cases zs with
    | nil => simp at hz
    | cons z zs =>
      simp only [List.map_cons, List.cons.injEq] at hz
      obtain ⟨rfl, h2⟩ := hz
      have : zs = [] := by simpa using h2.symm
      subst this
      simp
  | @node xs ys a b h1 h2 ih1 ih2 =>
    intro zs hz hh
    obtain ⟨as, bs, e1, e2, rfl⟩ := map_ok_append hz
    rw [ih1 e1 (fun l hl => hh l (hl.trans (List.sublist_append_left _ _))),
      ih2 e2 (fun l hl => hh l (hl.trans (List.sublist_append_right _ _))), plusOp_ok, List.sum_append]
    exact add_fits hs hb (by have := hh _ (List.Sublist.refl _); rwa [List.sum_append] at this)
  | @perm xs ys a hp _ ih =>
    intro zs hz hh
    subst hz
    obtain ⟨ys', rfl, h2⟩ := perm_map_ok hp
    rw [ih rfl, sum_perm h2]
    intro l hl
    obtain ⟨l', h3, h4⟩ := List.exists_perm_sublist hl h2
    rw [← sum_perm h3]
    exact hh _ h4

/-- Otherwise some order of the additions overflows. -/
theorem gsum_overflow (hs : t.signed = true) (hb : 32 ≤ t.bits) {zs : List Int} (hz : ∀ z ∈ zs, t.Has z)
    (h : ¬ SubSumsFit t zs) : GSum (plusOp t) (zs.map .ok) (.ub .overflow) := by
  have hn : ∃ ys : List Int, ys.Sublist zs ∧ ¬ t.Has ys.sum := by
    apply Classical.byContradiction
    intro hn
    exact h fun ys hy => Classical.byContradiction fun h' => hn ⟨ys, hy, h'⟩
  obtain ⟨ys, h1, h2⟩ := hn
  have hb0 : 0 < t.bits := by omega
  have hne : ys ≠ [] := by
    rintro rfl
    apply h2
    have : (0 : Int) < 2 ^ (t.bits - 1) := Int.pow_pos (by decide)
    unfold IntTy.Has IntTy.lowest IntTy.max
    simp only [hs, if_true, List.sum_nil]
    omega
  -- summing up the elements of `ys` overflows somewhere
  have hys : GSum (plusOp t) (ys.map .ok) (.ub .overflow) := by
    have : ∀ ws : List Int, ws ≠ [] → (∀ z ∈ ws, t.Has z) → ∃ v, GSum (plusOp t) (ws.map .ok) v ∧
        (v = .ub .overflow ∨ v = .ok ws.sum ∧ t.Has ws.sum) := by
      intro ws
      induction ws with
      | nil => intro h; exact absurd rfl h
      | cons w ws ih =>
        intro _ hw
        cases ws with
        | nil => exact ⟨.ok w, GSum.single _, Or.inr (by simpa using hw w (by simp))⟩
        | cons w' ws =>
          obtain ⟨v, h3, h4⟩ := ih (by simp) (fun z hz => hw z (by simp [hz]))
          refine ⟨plusOp t (.ok w) v, by simpa using GSum.node (GSum.single (Outcome.ok w)) h3, ?_⟩
          rcases h4 with rfl | ⟨rfl, h4⟩
          · left; rfl
          · rw [plusOp_ok]
            by_cases hh : t.Has (w + (w' :: ws).sum)
            · right
              rw [add_fits hs hb hh]
              exact ⟨by simp, by simpa using hh⟩
            · left
              apply add_ub
              intro r hr
              have h6 : ¬ t.bits < 32 := by omega
              unfold BinOp.eval BinOp.evalIn IntTy.arith IntTy.promote at hr
              simp only [h6, hs, hh, if_true, if_false, Outcome.bind_ub] at hr
              exact absurd hr (by simp)
    obtain ⟨v, h3, h4⟩ := this ys hne (fun z hz' => hz z (h1.subset hz'))
    rcases h4 with rfl | ⟨_, h4⟩
    · exact h3
    · exact absurd h4 h2
  obtain ⟨rest, hr⟩ := h1.exists_perm_append
  have hp : (ys.map Outcome.ok ++ rest.map Outcome.ok).Perm (zs.map .ok) := by
    rw [← List.map_append]; exact (hr.map _).symm
  cases rest with
  | nil => simpa using GSum.perm hp (by simpa using hys)
  | cons x xs =>
    exact GSum.perm hp (GSum.node hys (by simpa using Simd.foldl_gsum (plusOp t) (.ok x) (xs.map .ok)))

/-- The condition, in terms of the sums of the positive and of the negative elements. -/
theorem subSumsFit_iff (zs : List Int) : SubSumsFit t zs ↔
    (zs.filter (fun z => decide (0 < z))).sum ≤ t.max ∧ t.lowest ≤ (zs.filter (fun z => decide (z < 0))).sum ∧ t.Has 0 := by
  constructor
  · intro h
    exact ⟨(h _ List.filter_sublist).2, (h _ List.filter_sublist).1, by simpa using h [] (List.nil_sublist _)⟩
  · rintro ⟨h1, h2, h3⟩ ys hy
    have key : ∀ {ys zs : List Int}, ys.Sublist zs → ys.sum ≤ (zs.filter (fun z => decide (0 < z))).sum ∧
        (zs.filter (fun z => decide (z < 0))).sum ≤ ys.sum := by
      intro ys zs h
      induction h with
      | slnil => simp
      | @cons l1 l2 a _ ih =>
        simp only [List.filter_cons]
        by_cases h0 : 0 < a
        · have h1 : ¬ a < 0 := by omega
          simp [h0, h1]; omega
        · by_cases h1 : a < 0
          · simp [h0, h1]; omega
          · simp [h0, h1]; omega
      | @cons_cons l1 l2 a _ ih =>
        simp only [List.filter_cons, List.sum_cons]
        by_cases h0 : 0 < a
        · have h1 : ¬ a < 0 := by omega
          simp [h0, h1]; omega
        · by_cases h1 : a < 0
          · simp [h0, h1]; omega
          · simp [h0, h1]; omega
    obtain ⟨a, b⟩ := key hy
    exact ⟨by omega, by omega⟩

end Vir
