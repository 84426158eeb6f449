import Verif.Props.SimdOps

/-!
# C50: the operators are undefined whenever one lane is

The converses of `shiftBy_spec`, `compound_eq_binary`, `neg_spec` and `step_spec`: together they say that an operation is
undefined exactly if the built-in operation on some lane is.
-/

namespace Vir.Simd
open Spec IntTy

private theorem forUp_ub_at {S : Type} {body : Nat → S → Outcome S} {n k : Nat} {st : S} (P : Nat → S → Prop)
    (h0 : P 0 st)
    (h : ∀ j s, j < k → P j s → (∃ s', body j s = .ok s' ∧ P (j + 1) s') ∨ ∃ u, body j s = .ub u) (hk : k < n)
    (hu : ∀ s, P k s → ∃ u, body k s = .ub u) : ∃ u, forUp body n 0 st = .ub u := by
  suffices H : ∀ c i st, P i st → i + c = n → i ≤ k → ∃ u, forUp body c i st = .ub u from
    H n 0 st h0 (by omega) (by omega)
  intro c
  induction c with
  | zero => intro i st _ h1 h2; omega
  | succ c ih =>
    intro i st hP h1 h2
    by_cases hik : i = k
    · subst hik
      obtain ⟨u, hu⟩ := hu st hP
      exact ⟨u, by rw [forUp, hu]; rfl⟩
    · rcases h i st (by omega) hP with ⟨s', hs', hP'⟩ | ⟨u, hu'⟩
      · obtain ⟨u, hu'⟩ := ih (i + 1) s' hP' (by omega) (by omega)
        exact ⟨u, by rw [forUp, hs', Outcome.bind_ok, hu']⟩
      · exact ⟨u, by rw [forUp, hu']; rfl⟩

/-- A loop that updates the lanes one after the other is undefined if the update of some lane of the original value is. -/
private theorem update_ub {f : Nat → Int → Outcome Int} {body : Nat → List Int → Outcome (List Int)} (x : List Int)
    (hb : ∀ i d a, i < x.length → (∀ j, i ≤ j → d[j]? = x[j]?) → x[i]? = some a →
      body i d = (do wr d i (← f i a)))
    (hnt : ∀ i a, f i a ≠ .trap) {k : Nat} (hk : k < x.length) (hu : ∃ u, f k x[k] = .ub u) :
    ∃ u, forUp body x.length 0 x = .ub u := by
  refine forUp_ub_at (k := k) (fun i d => d.length = x.length ∧ ∀ j, i ≤ j → d[j]? = x[j]?)
    ⟨rfl, fun _ _ => rfl⟩ (fun j d hj ⟨hl, hd⟩ => ?_) hk (fun d ⟨hl, hd⟩ => ?_)
  · have hjx : j < x.length := by omega
    rw [hb j d x[j] hjx hd (List.getElem?_eq_getElem hjx)]
    cases hf : f j x[j] with
    | trap => exact absurd hf (hnt _ _)
    | ub u => exact .inr ⟨u, rfl⟩
    | ok c =>
      refine .inl ⟨d.set j c, ?_, by simp [hl], fun i hi => ?_⟩
      · rw [Outcome.bind_ok, wr, if_pos (by omega)]
      · rw [List.getElem?_set_ne (by omega)]; exact hd i (by omega)
  · rw [hb k d x[k] hk hd (List.getElem?_eq_getElem hk)]
    obtain ⟨u, hu⟩ := hu
    exact ⟨u, by rw [hu]; rfl⟩

/-- **C50.** A compound assignment is undefined if the operation on some lane is, also when both operands are the same
object. -/
theorem compound_ub (t : IntTy) (hv : ValidTy t) (op : BinOp) (x : List Int) (rhs : Option (List Int))
    (hl : ∀ y, rhs = some y → y.length = x.length) (hx : LanesOf t x) (hy : ∀ y, rhs = some y → LanesOf t y)
    (hd : SomeUndefined t op x (rhs.getD x)) : ∃ u, compound t op x rhs = .ub u := by
  obtain ⟨k, a, b, ha, hb, hu⟩ := hd
  obtain ⟨hk, rfl⟩ := List.getElem?_eq_some_iff.1 ha
  refine update_ub (f := fun i a => do op.eval t a (← rd (rhs.getD x) i)) x (fun i d a hi hd ha => ?_) (fun i a => ?_)
    hk ?_
  · have h1 : rd d i = .ok a := by rw [rd, hd i (Nat.le_refl _), ha]
    have h2 : rd (rhs.getD d) i = rd (rhs.getD x) i := by
      cases rhs with
      | none => simp only [Option.getD_none, rd, hd i (Nat.le_refl _)]
      | some y => rfl
    rw [h1, Outcome.bind_ok, h2, Outcome.bind_assoc]
  · simp only [rd]
    cases (rhs.getD x)[i]? with
    | none => simp
    | some b => simpa using eval_not_trap t op a b
  · obtain ⟨hk', rfl⟩ := List.getElem?_eq_some_iff.1 hb
    obtain ⟨u, h⟩ := eval_ub t hv op _ _ (hx _ (List.getElem_mem hk)) (fun _ _ => by
      cases rhs with
      | none => exact hx _ (List.getElem_mem hk')
      | some y => exact hy y rfl _ (List.getElem_mem hk')) hu
    exact ⟨u, by rw [rd_eq hk', Outcome.bind_ok, h]⟩

/-- **C50.** Shifts by an `int` outside the promoted type are undefined. -/
theorem shiftBy_ub (t : IntTy) (hv : ValidTy t) (op : BinOp) (hop : op = .shl ∨ op = .shr) (x : List Int) (n : Int)
    (hne : x ≠ []) (hx : LanesOf t x) (hd : n < 0 ∨ (if t.bits < 32 then 32 else t.bits) ≤ n) :
    ∃ u, shiftBy t op x n = .ub u := by
  have h0 : 0 < x.length := List.length_pos_iff.2 hne
  refine gen_some_ub (k := 0) (fun j hj => ?_) h0 ?_
  · simp [at'_eq hj, eval_not_trap]
  · obtain ⟨u, h⟩ := eval_ub t hv op x[0] n (hx _ (List.getElem_mem h0))
      (fun h4 h5 => by rcases hop with h | h <;> simp_all) (by rcases hop with rfl | rfl <;> exact hd)
    exact ⟨u, by simp [at'_eq h0, h]⟩

/-- **C50.** Unary minus is undefined if a lane is the lowest value of a signed type with at least 32 bits. -/
theorem neg_ub (t : IntTy) (x : List Int) (hs : t.signed = true) (hb : 32 ≤ t.bits) (hm : t.lowest ∈ x) :
    ∃ u, unary t .neg x = .ub u := by
  obtain ⟨k, hk, hkx⟩ := List.getElem_of_mem hm
  refine gen_some_ub (k := k) (fun j hj => ?_) hk ?_
  · rw [rd_eq hj, Outcome.bind_ok, UnOp.eval]
    unfold IntTy.arith
    split
    · split <;> simp
    · simp
  · refine ⟨.overflow, ?_⟩
    rw [rd_eq hk, Outcome.bind_ok, UnOp.eval, promote_wide hb, hkx, arith_ub hs]
    · rfl
    · intro h
      have := h.2
      have hlm : t.lowest = -t.max - 1 := by
        unfold IntTy.lowest IntTy.max; simp only [hs, if_true]; omega
      omega

/-- **C50.** `++x` and `x++` are undefined if a lane is the highest value of a signed type with at least 32 bits, `--x`
and `x--` if a lane is the lowest. -/
theorem step_ub (t : IntTy) (x : List Int) (hs : t.signed = true) (hb : 32 ≤ t.bits) :
    (t.max ∈ x → (∃ u, preStep (incr t) x = .ub u) ∧ ∃ u, postStep (incr t) x = .ub u) ∧
    (t.lowest ∈ x → (∃ u, preStep (decr t) x = .ub u) ∧ ∃ u, postStep (decr t) x = .ub u) := by
  have key : ∀ (f : Int → Outcome Int) (a : Int), a ∈ x → (∀ a, f a ≠ .trap) → (∃ u, f a = .ub u) →
      (∃ u, preStep f x = .ub u) ∧ ∃ u, postStep f x = .ub u := fun f a ha hnt hu => by
    obtain ⟨k, hk, rfl⟩ := List.getElem_of_mem ha
    have hpre : ∃ u, preStep f x = .ub u := update_ub (f := fun _ => f) x (fun i d a hi hd ha => by
      have h1 : rd d i = .ok a := by rw [rd, hd i (Nat.le_refl _), ha]
      rw [h1, Outcome.bind_ok]) (fun _ => hnt) hk hu
    refine ⟨hpre, ?_⟩
    obtain ⟨u, hpre⟩ := hpre
    have : postStep f x = (do let y ← preStep f x; .ok (x, y)) := rfl
    exact ⟨u, by rw [this, hpre]; rfl⟩
  refine ⟨fun h => key _ _ h (fun a => eval_not_trap _ _ _ _) ⟨.overflow, ?_⟩,
    fun h => key _ _ h (fun a => eval_not_trap _ _ _ _) ⟨.overflow, ?_⟩⟩
  · rw [incr, BinOp.eval, BinOp.evalIn, promote_wide hb, arith_ub hs (fun h => by have := h.2; omega)]; rfl
  · rw [decr, BinOp.eval, BinOp.evalIn, promote_wide hb, arith_ub hs (fun h => by have := h.1; omega)]; rfl

/-! ### The hypotheses are met -/

example : ∃ u, compound i32 .add [1, 2147483647] none = .ub u :=
  compound_ub i32 (by unfold ValidTy; decide) .add [1, 2147483647] none (by simp) (by unfold LanesOf; decide) (by simp)
    ⟨1, 2147483647, 2147483647, rfl, rfl, by unfold IsUndefined; decide⟩
example : ∃ u, compound i64 .div [4, 2] (some [2, 0]) = .ub u :=
  compound_ub i64 (by unfold ValidTy; decide) .div [4, 2] (some [2, 0]) (by simp) (by unfold LanesOf; decide)
    (by rintro y ⟨⟩; unfold LanesOf; decide) ⟨1, 2, 0, rfl, rfl, by unfold IsUndefined; decide⟩
example := shiftBy_ub u8 (by unfold ValidTy; decide) .shl (.inl rfl) [1, 2] 32 (by simp) (by unfold LanesOf; decide)
  (by decide)
example := neg_ub i32 [5, -2147483648] rfl (by decide) (by decide)
example := (step_ub i64 [5, i64.max] rfl (by decide)).1 (by decide)

end Vir.Simd
