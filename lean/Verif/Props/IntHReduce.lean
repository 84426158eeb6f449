import Verif.Lemmas.IntHReduce
import Mathlib.Data.List.Induction
import Mathlib.Data.List.Infix

/-!
# C37, C38: reductions of integer simds with the standard function objects
-/

namespace Vir.Simd
open Spec IntTy

/-- **C37.** `reduce(v, o)` for the function objects `o` of the standard and every integer element type: if the result is defined it is the
sum, the product, the conjunction, the disjunction or the exclusive disjunction of all lanes; otherwise an operation overflowed. -/
theorem reduceInt_value (t : IntTy) (hv : ValidTy t) (o : RedOp) (v : List Int) (h0 : v ≠ []) (hw : v.length < 2 ^ 31) (hx : LanesOf t v) :
    (∃ r, reduceInt t o v = .ok r ∧ IsReduction t o v r) ∨ reduceInt t o v = .ub .overflow := by
  have hg := reduceInt_gsum (t := t) (o := o) v h0 (by omega)
  rcases (gsum_strict hg map_ok_mem).1 with ⟨r, h⟩ | h
  · exact .inl ⟨r, h, gsum_reduction hv hg rfl hx r h⟩
  · exact .inr h

/-- **C37.** It is defined whatever the lanes are if the operation never overflows in the element type. -/
theorem reduceInt_defined (t : IntTy) (hv : ValidTy t) (o : RedOp) (hn : NeverOverflows t o) (v : List Int) (h0 : v ≠ [])
    (hw : v.length < 2 ^ 31) (hx : LanesOf t v) : ∃ r, reduceInt t o v = .ok r ∧ IsReduction t o v r := by
  have hg := reduceInt_gsum (t := t) (o := o) v h0 (by omega)
  obtain ⟨r, h⟩ := gsum_defined hv hg rfl hx fun _ _ a b _ ha hb => neverOverflows_defined hv hn (isReduction_has ha) (isReduction_has hb)
  exact ⟨r, h, gsum_reduction hv hg rfl hx r h⟩

/-- **C37.** For a signed type of at least 32 bits the sum of the lanes is exact if the sums of all parts of the lanes fit. -/
theorem reduceInt_sum_fits (t : IntTy) (hb : 32 ≤ t.bits) (v : List Int) (h0 : v ≠ []) (hw : v.length < 2 ^ 31)
    (hf : ∀ ys : List Int, ys.Sublist v → t.Has ys.sum) : reduceInt t .plus v = .ok v.sum := by
  have hv : ValidTy t := ⟨by omega, .inr hb⟩
  have hx : LanesOf t v := fun x hx => by simpa using hf [x] (List.singleton_sublist.2 hx)
  have hg := reduceInt_gsum (t := t) (o := .plus) v h0 (by omega)
  have hsub : ∀ as : List Int, as.Subperm v → t.Has as.sum := fun as ⟨l, h1, h2⟩ => by rw [← sum_perm' h1]; exact hf l h2
  obtain ⟨r, h⟩ := gsum_defined hv hg rfl hx fun as bs a b hsp ha hb => by
    have e1 := isWrapped_has hv.1 ha (hsub as ((List.sublist_append_left as bs).subperm.trans hsp))
    have e2 := isWrapped_has hv.1 hb (hsub bs ((List.sublist_append_right as bs).subperm.trans hsp))
    rintro ⟨_, _, hn⟩
    rw [e1, e2, ← List.sum_append] at hn
    exact hn (hsub _ hsp)
  rw [h, isWrapped_has hv.1 (gsum_reduction hv hg rfl hx r h) (hf v (List.Sublist.refl v))]

/-- **C37.** Likewise the product. -/
theorem reduceInt_prod_fits (t : IntTy) (hb : 32 ≤ t.bits) (v : List Int) (h0 : v ≠ []) (hw : v.length < 2 ^ 31)
    (hf : ∀ ys : List Int, ys.Sublist v → t.Has ys.prod) : reduceInt t .multiplies v = .ok v.prod := by
  have hv : ValidTy t := ⟨by omega, .inr hb⟩
  have hx : LanesOf t v := fun x hx => by simpa using hf [x] (List.singleton_sublist.2 hx)
  have hg := reduceInt_gsum (t := t) (o := .multiplies) v h0 (by omega)
  have hsub : ∀ as : List Int, as.Subperm v → t.Has as.prod := fun as ⟨l, h1, h2⟩ => by rw [← prod_perm h1]; exact hf l h2
  obtain ⟨r, h⟩ := gsum_defined hv hg rfl hx fun as bs a b hsp ha hb' => by
    have e1 := isWrapped_has hv.1 ha (hsub as ((List.sublist_append_left as bs).subperm.trans hsp))
    have e2 := isWrapped_has hv.1 hb' (hsub bs ((List.sublist_append_right as bs).subperm.trans hsp))
    rintro (⟨_, _, hn⟩ | ⟨hn, _⟩)
    · rw [e1, e2, ← prod_append'] at hn
      exact hn (hsub _ hsp)
    · omega
  rw [h, isWrapped_has hv.1 (gsum_reduction hv hg rfl hx r h) (hf v (List.Sublist.refl v))]

/-- **C38.** `reduce(where(k, v), o)` without an identity element, for the function objects `o` that have a default one and every integer
element type: if the result is defined it is the reduction of the selected lanes; otherwise an operation overflowed. -/
theorem reduceMaskedDefault_value (t : IntTy) (hv : ValidTy t) (o : RedOp) (k : List Bool) (v : List Int) (hl : k.length = v.length)
    (hx : LanesOf t v) :
    (∃ r, reduceMaskedDefault t o k v = .ok r ∧ IsReduction t o (selected k v) r) ∨ reduceMaskedDefault t o k v = .ub .overflow := by
  obtain ⟨a, h1, h2⟩ := identity_reduction hv o
  unfold reduceMaskedDefault
  rw [h1, Outcome.bind_ok, reduceMaskedInt_eq _ _ _ hl]
  rcases foldE_dich (t := t) (o := o) a (selected k v) with ⟨r, h⟩ | h
  · exact .inl ⟨r, h, by simpa using foldE_value hv h2 (selected_has hx) h⟩
  · exact .inr h

/-- **C38.** It is defined exactly if no step is undefined that combines the reduction of the selected lanes before a selected lane with that
lane. Lanes that are not selected have no influence. -/
theorem reduceMaskedDefault_defined_iff (t : IntTy) (hv : ValidTy t) (o : RedOp) (k : List Bool) (v : List Int) (hl : k.length = v.length)
    (hx : LanesOf t v) :
    (∃ r, reduceMaskedDefault t o k v = .ok r) ↔
      ∀ p x, p ++ [x] <+: selected k v → ∀ a, IsReduction t o p a → ¬ IsUndefined t o.binOp a x := by
  obtain ⟨a, h1, h2⟩ := identity_reduction hv o
  unfold reduceMaskedDefault
  rw [h1, Outcome.bind_ok, reduceMaskedInt_eq _ _ _ hl]
  simpa using foldE_defined hv h2 (selected_has hx)

/-- **C38.** It is defined whatever the lanes are if the operation never overflows in the element type. -/
theorem reduceMaskedDefault_defined (t : IntTy) (hv : ValidTy t) (o : RedOp) (hn : NeverOverflows t o) (k : List Bool) (v : List Int)
    (hl : k.length = v.length) (hx : LanesOf t v) : ∃ r, reduceMaskedDefault t o k v = .ok r ∧ IsReduction t o (selected k v) r := by
  obtain ⟨r, h⟩ := (reduceMaskedDefault_defined_iff t hv o k v hl hx).2 fun p x hp a ha =>
    neverOverflows_defined hv hn (isReduction_has ha) (selected_has hx x (hp.subset (by simp)))
  rcases reduceMaskedDefault_value t hv o k v hl hx with ⟨r', h1, h2⟩ | h1
  · exact ⟨r', h1, h2⟩
  · rw [h] at h1; cases h1

/-- **C38.** For a signed type of at least 32 bits the masked sum is the exact sum of the selected lanes if the sum of every prefix of them fits
the type, and overflows otherwise. -/
theorem reduceMaskedDefault_sum (t : IntTy) (hs : t.signed = true) (hb : 32 ≤ t.bits) (k : List Bool) (v : List Int) (hl : k.length = v.length)
    (hx : LanesOf t v) :
    ((∀ p, p <+: selected k v → t.Has p.sum) → reduceMaskedDefault t .plus k v = .ok (selected k v).sum) ∧
    (¬ (∀ p, p <+: selected k v → t.Has p.sum) → reduceMaskedDefault t .plus k v = .ub .overflow) := by
  have hv : ValidTy t := ⟨by omega, .inr hb⟩
  have hiff := reduceMaskedDefault_defined_iff t hv .plus k v hl hx
  constructor
  · intro hp
    obtain ⟨r, h⟩ := hiff.2 fun p x hpx a ha => by
      rintro ⟨_, _, hn⟩
      rw [isWrapped_has hv.1 ha (hp p (List.IsPrefix.trans (List.prefix_append p [x]) hpx))] at hn
      exact hn (by simpa using hp _ hpx)
    rcases reduceMaskedDefault_value t hv .plus k v hl hx with ⟨r', h1, h2⟩ | h1
    · rw [h1, isWrapped_has hv.1 h2 (hp _ (List.prefix_refl _))]
    · rw [h] at h1; cases h1
  · intro hp
    rcases reduceMaskedDefault_value t hv .plus k v hl hx with ⟨r', h1, h2⟩ | h1
    · refine absurd (fun p hpp => ?_) hp
      have hd := hiff.1 ⟨r', h1⟩
      induction p using List.reverseRecOn with
      | nil => exact has_zero t
      | append_singleton p x ih =>
        have hp' := ih (List.IsPrefix.trans (List.prefix_append p [x]) hpp)
        have := hd p x hpp p.sum ⟨hp', by simp⟩
        simp only [RedOp.binOp, IsUndefined, hs, hb, true_and, not_not] at this
        simpa using this
    · exact h1

/-- **C38.** Likewise the masked product. -/
theorem reduceMaskedDefault_prod (t : IntTy) (hs : t.signed = true) (hb : 32 ≤ t.bits) (k : List Bool) (v : List Int) (hl : k.length = v.length)
    (hx : LanesOf t v) :
    ((∀ p, p <+: selected k v → t.Has p.prod) → reduceMaskedDefault t .multiplies k v = .ok (selected k v).prod) ∧
    (¬ (∀ p, p <+: selected k v → t.Has p.prod) → reduceMaskedDefault t .multiplies k v = .ub .overflow) := by
  have hv : ValidTy t := ⟨by omega, .inr hb⟩
  have hiff := reduceMaskedDefault_defined_iff t hv .multiplies k v hl hx
  constructor
  · intro hp
    obtain ⟨r, h⟩ := hiff.2 fun p x hpx a ha => by
      rintro (⟨_, _, hn⟩ | ⟨hn, _⟩)
      · rw [isWrapped_has hv.1 ha (hp p (List.IsPrefix.trans (List.prefix_append p [x]) hpx))] at hn
        exact hn (by simpa [prod_append'] using hp _ hpx)
      · omega
    rcases reduceMaskedDefault_value t hv .multiplies k v hl hx with ⟨r', h1, h2⟩ | h1
    · rw [h1, isWrapped_has hv.1 h2 (hp _ (List.prefix_refl _))]
    · rw [h] at h1; cases h1
  · intro hp
    rcases reduceMaskedDefault_value t hv .multiplies k v hl hx with ⟨r', h1, h2⟩ | h1
    · refine absurd (fun p hpp => ?_) hp
      have hd := hiff.1 ⟨r', h1⟩
      induction p using List.reverseRecOn with
      | nil => exact has_one (by omega)
      | append_singleton p x ih =>
        have hp' := ih (List.IsPrefix.trans (List.prefix_append p [x]) hpp)
        have := hd p x hpp p.prod ⟨hp', by simp⟩
        have h32 : ¬ t.bits < 32 := by omega
        simp only [RedOp.binOp, IsUndefined, hs, hb, h32, true_and, false_and, or_false, not_not] at this
        simpa [prod_append'] using this
    · exact h1

/-- **C38.** The default identity elements are neutral: combining one with any value of the type, in either order, is defined and gives
that value. Hence they are also the reductions of no lanes. -/
theorem identity_neutral (t : IntTy) (hv : ValidTy t) (o : RedOp) :
    ∃ a, o.identity t = .ok a ∧ t.Has a ∧ IsReduction t o [] a ∧
      ∀ x, t.Has x → o.binOp.eval t a x = .ok x ∧ o.binOp.eval t x a = .ok x := by
  obtain ⟨a, h1, h2⟩ := identity_reduction hv o
  have h3 := isReduction_has h2
  refine ⟨a, h1, h3, h2, fun x hx => ?_⟩
  have hx1 : IsReduction t o [x] x := isReduction_single hx
  have hu : ¬ IsUndefined t o.binOp a x ∧ ¬ IsUndefined t o.binOp x a := by
    cases o with
    | plus =>
      constructor
      · rintro ⟨h4, h5, h6⟩
        rw [isWrapped_has hv.1 h2 (has_zero t)] at h6
        exact h6 (by simpa using hx)
      · rintro ⟨h4, h5, h6⟩
        rw [isWrapped_has hv.1 h2 (has_zero t)] at h6
        exact h6 (by simpa using hx)
    | multiplies =>
      by_cases h15 : t.bits ≤ 15
      · have hn : NeverOverflows t .multiplies := by unfold NeverOverflows; exact .inr (.inl h15)
        exact ⟨neverOverflows_defined hv hn h3 hx, neverOverflows_defined hv hn hx h3⟩
      · have ha : a = 1 := isWrapped_has hv.1 h2 (has_one (by omega))
        subst ha
        have hsm : t.bits < 32 → x < 2 ^ 31 := fun h => by
          have := IntTy.narrow_bounds (show t.bits ≤ 16 by have := hv.2; omega) hx
          have e : (2 : Int) ^ 31 = 2147483648 := rfl
          cases hs : t.signed with
          | true => have := (this.1 hs).2; omega
          | false => have := (this.2 hs).2; omega
        constructor
        · rintro (⟨_, _, h6⟩ | ⟨h6, h7⟩)
          · exact h6 (by simpa using hx)
          · have := hsm h6; omega
        · rintro (⟨_, _, h6⟩ | ⟨h6, h7⟩)
          · exact h6 (by simpa using hx)
          · have := hsm h6; omega
    | bitAnd => exact ⟨id, id⟩
    | bitOr => exact ⟨id, id⟩
    | bitXor => exact ⟨id, id⟩
  obtain ⟨c, e1, e2, _⟩ := eval_defined hv h3 hx hu.1
  obtain ⟨d, e3, e4, _⟩ := eval_defined hv hx h3 hu.2
  rw [e1, e3, isReduction_unique hv.1 (isReduction_node h2 hx1 e2) hx1,
    isReduction_unique hv.1 (isReduction_node hx1 h2 e4) (by simpa using hx1)]
  exact ⟨rfl, rfl⟩

/-- **C38.** If no lane is selected the result is the identity element. -/
theorem reduceMaskedDefault_none (t : IntTy) (o : RedOp) (v : List Int) :
    reduceMaskedDefault t o (List.replicate v.length false) v = o.identity t := by
  have hsel : ∀ v : List Int, selected (List.replicate v.length false) v = [] := by
    intro v
    induction v with
    | nil => rfl
    | cons x xs ih =>
      simp only [selected] at ih ⊢
      simp [List.replicate_succ, ih]
  unfold reduceMaskedDefault
  cases h : o.identity t <;> simp only [Outcome.bind_ok, Outcome.bind_ub, Outcome.bind_trap]
  rw [reduceMaskedInt_eq _ _ _ (by simp), hsel]
  rfl

/-- **C38.** If all lanes are selected the result is that of `reduce(v, o)`, whenever both are defined. -/
theorem reduceMaskedDefault_all (t : IntTy) (hv : ValidTy t) (o : RedOp) (v : List Int) (h0 : v ≠ []) (hw : v.length < 2 ^ 31)
    (hx : LanesOf t v) {r s : Int} (h1 : reduceInt t o v = .ok r)
    (h2 : reduceMaskedDefault t o (List.replicate v.length true) v = .ok s) : r = s := by
  have hsel : ∀ v : List Int, selected (List.replicate v.length true) v = v := by
    intro v
    induction v with
    | nil => rfl
    | cons x xs ih =>
      simp only [selected] at ih ⊢
      simp [List.replicate_succ, ih]
  rcases reduceInt_value t hv o v h0 hw hx with ⟨r', e1, e2⟩ | e
  · rcases reduceMaskedDefault_value t hv o (List.replicate v.length true) v (by simp) hx with ⟨s', e3, e4⟩ | e
    · rw [h1] at e1
      rw [h2] at e3
      cases e1; cases e3
      rw [hsel] at e4
      exact isReduction_unique hv.1 e2 e4
    · rw [h2] at e; cases e
  · rw [h1] at e; cases e

/-- **C38.** Whether a sum of `int` overflows can depend on the order in which the lanes are combined: of the lanes `max, max, -max, -max` the
masked reduction adds the first two first and overflows, `reduce(v)` adds `max + -max` first. -/
theorem reduce_order_matters :
    reduceInt i32 .plus [2147483647, 2147483647, -2147483647, -2147483647] = .ok 0 ∧
    reduceMaskedDefault i32 .plus [true, true, true, true] [2147483647, 2147483647, -2147483647, -2147483647] = .ub .overflow := by
  decide

/-- **C38.** The product of `unsigned short` lanes can be undefined: it is computed as `int`. -/
theorem reduce_u16_product_undefined :
    reduceInt u16 .multiplies [65535, 65535] = .ub .overflow ∧
    reduceMaskedDefault u16 .multiplies [true, true] [65535, 65535] = .ub .overflow := by decide

/-- Seven lanes of `unsigned char`, some selected: every reduction. -/
example : reduceMaskedDefault u8 .plus [true, false, true, true, false, true, true] [200, 1, 100, 3, 9, 77, 255] = .ok 123 ∧
    reduceMaskedDefault u8 .multiplies [true, false, true, true, false, true, true] [200, 1, 100, 3, 9, 77, 255] = .ok 32 ∧
    reduceMaskedDefault u8 .bitAnd [false, false, true, false, false, true, true] [200, 1, 100, 3, 9, 77, 255] = .ok 68 ∧
    reduceMaskedDefault u8 .bitOr [true, true, false, false, false, false, false] [200, 1, 100, 3, 9, 77, 255] = .ok 201 ∧
    reduceMaskedDefault u8 .bitXor [true, false, false, false, false, false, true] [200, 1, 100, 3, 9, 77, 255] = .ok 55 ∧
    reduceMaskedDefault i8 .bitAnd [false, false] [3, 5] = .ok (-1) ∧ reduceMaskedDefault u8 .bitAnd [false, false] [3, 5] = .ok 255 ∧
    reduceInt u8 .plus [200, 1, 100, 3, 9, 77, 255] = .ok 133 ∧ reduceInt u8 .bitXor [200, 1, 100, 3, 9, 77, 255] = .ok 21 ∧
    reduceInt i32 .multiplies [2, -3, 5, 7, -11] = .ok 2310 := by decide

/-- The hypotheses are met by seven lanes of `unsigned char` and by five lanes of `int`. -/
example : ValidTy u8 ∧ (∀ o, NeverOverflows u8 o) ∧ LanesOf u8 [200, 1, 100, 3, 9, 77, 255] ∧ NeverOverflows i16 .multiplies ∧
    ¬ NeverOverflows u16 .multiplies ∧ LanesOf i32 [2, -3, 5, 7, -11] ∧
    (∀ p, p <+: selected [true, false, true, true, true] [2, -3, 5, 7, -11] → i32.Has p.prod) := by
  refine ⟨by unfold ValidTy; decide, fun o => ?_, by unfold LanesOf; decide, ?_, ?_, by unfold LanesOf; decide, ?_⟩
  · cases o <;> simp [NeverOverflows, u8]
  · simp [NeverOverflows, i16]
  · simp [NeverOverflows, u16]
  · intro p hp
    have hall : ∀ p ∈ (selected [true, false, true, true, true] [2, -3, 5, 7, -11]).inits, i32.Has p.prod := by decide
    exact hall p ((List.mem_inits _ _).2 hp)

end Vir.Simd
