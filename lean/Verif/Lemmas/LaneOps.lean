import Verif.Lemmas.SimdOps
import Verif.Spec.Arith

/-! One lane of the simd operators. -/

namespace Vir
open IntTy Spec

theorem valid_iff (t : IntTy) : ValidTy t ↔ t.Valid := Iff.rfl

theorem isWrapped_of {t : IntTy} {x r : Int} (h : t.Has r) (he : r % 2 ^ t.bits = x % 2 ^ t.bits) : IsWrapped t x r :=
  ⟨h, Int.dvd_of_emod_eq_zero (Int.emod_eq_emod_iff_emod_sub_eq_zero.1 he)⟩

theorem isWrapped_conv {t : IntTy} (ht : 0 < t.bits) (x : Int) : IsWrapped t x (t.conv x) :=
  isWrapped_of (has_conv t ht x) (conv_emod t x)

theorem isWrapped_unique {t : IntTy} (ht : 0 < t.bits) {x r r' : Int} (h : IsWrapped t x r) (h' : IsWrapped t x r') :
    r = r' := by
  refine has_eq_of_emod ht h.1 h'.1 ?_
  rw [Int.emod_eq_emod_iff_emod_sub_eq_zero]
  apply Int.emod_eq_zero_of_dvd
  have := Int.dvd_sub h.2 h'.2
  rwa [show r - x - (r' - x) = r - r' by omega] at this

theorem isWrapped_has {t : IntTy} (ht : 0 < t.bits) {x r : Int} (h : IsWrapped t x r) (hx : t.Has x) : r = x :=
  isWrapped_unique ht h ⟨hx, by simp⟩

theorem bitOf_emod {j n : Nat} (h : j < n) (x : Int) : bitOf (x % 2 ^ n) j = bitOf x j := by
  have hp : (2 : Int) ^ j ≠ 0 := Int.ne_of_gt (Int.pow_pos (by decide))
  have hx : x = x % 2 ^ n + 2 ^ j * (2 * (2 ^ (n - j - 1) * (x / 2 ^ n))) := by
    have h1 := Int.emod_add_mul_ediv x (2 ^ n)
    have h2 : (2 : Int) ^ n = 2 ^ j * (2 * 2 ^ (n - j - 1)) := by
      rw [← Int.pow_succ', ← Int.pow_add]; congr 1; omega
    have h3 : (2 : Int) ^ j * (2 * (2 ^ (n - j - 1) * (x / 2 ^ n))) = 2 ^ n * (x / 2 ^ n) := by
      simp only [h2, Int.mul_assoc]
    rw [h3]; exact h1.symm
  unfold bitOf
  have : x / 2 ^ j % 2 = x % 2 ^ n / 2 ^ j % 2 := by
    rw [congrArg (· / 2 ^ j) hx, Int.add_mul_ediv_left _ _ hp, Int.add_mul_emod_self_left]
  rw [this]

theorem bitOf_congr {j n : Nat} (h : j < n) {x y : Int} (he : x % 2 ^ n = y % 2 ^ n) : bitOf x j = bitOf y j := by
  rw [← bitOf_emod h x, he, bitOf_emod h y]

theorem bitOf_nat (x j : Nat) : bitOf (x : Int) j = x.testBit j := by
  rw [bitOf, Nat.testBit_eq_decide_div_mod_eq]
  congr 1
  have : ((x : Int) / 2 ^ j % 2) = ((x / 2 ^ j % 2 : Nat) : Int) := by push_cast; rfl
  rw [this]
  simp only [eq_iff_iff]
  omega

theorem bitOf_ofInt {j n : Nat} (h : j < n) (x : Int) : (BitVec.ofInt n x).getLsbD j = bitOf x j := by
  rw [BitVec.getLsbD, BitVec.toNat_ofInt, ← bitOf_nat, ← bitOf_emod h x]
  congr 1
  have : (0 : Int) ≤ x % 2 ^ n := Int.emod_nonneg _ (Int.ne_of_gt (Int.pow_pos (by decide)))
  have hc : ((2 ^ n : Nat) : Int) = 2 ^ n := by simp
  rw [hc]; omega

theorem bitwise_spec {t : IntTy} (hv : t.Valid) {op : BitVec t.promote.bits → BitVec t.promote.bits → BitVec t.promote.bits}
    {bop : Bool → Bool → Bool} (hop : ∀ (x y : BitVec t.promote.bits) (j : Nat), j < t.promote.bits →
      (op x y).getLsbD j = bop (x.getLsbD j) (y.getLsbD j)) (a b : Int) :
    t.Has (t.conv (t.promote.bitwise op a b)) ∧
      ∀ j < t.bits, bitOf (t.conv (t.promote.bitwise op a b)) j = bop (bitOf a j) (bitOf b j) := by
  refine ⟨has_conv t hv.1 _, fun j hj => ?_⟩
  have hjp : j < t.promote.bits := Nat.lt_of_lt_of_le hj (le_promote t)
  rw [bitOf_congr hj (conv_emod t _), IntTy.bitwise, bitOf_congr hjp (conv_emod _ _), bitOf_nat]
  have := hop (BitVec.ofInt _ a) (BitVec.ofInt _ b) j hjp
  rw [bitOf_ofInt hjp, bitOf_ofInt hjp, BitVec.getLsbD] at this
  exact this

theorem narrow_mul {t : IntTy} (h : t.bits ≤ 16) {a b : Int} (ha : t.Has a) (hb : t.Has b) :
    i32.Has (a * b) ↔ a * b < 2 ^ 31 := by
  rw [has_i32]
  obtain ⟨h1, h2⟩ := narrow_bounds h ha
  obtain ⟨h3, h4⟩ := narrow_bounds h hb
  suffices -2147483648 ≤ a * b by omega
  cases hs : t.signed
  · have := Int.mul_nonneg (h2 hs).1 (h4 hs).1
    omega
  · obtain ⟨h5, h6⟩ := h1 hs
    obtain ⟨h7, h8⟩ := h3 hs
    have h9 : a.natAbs ≤ 32768 := by omega
    have h10 : b.natAbs ≤ 32768 := by omega
    have := Nat.mul_le_mul h9 h10
    rw [← Int.natAbs_mul] at this
    omega

/-- **One lane.** A defined operation yields the specified result. -/
theorem eval_spec (t : IntTy) (hv : ValidTy t) (op : BinOp) (a b : Int) (ha : t.Has a)
    (hb : op ≠ .shl → op ≠ .shr → t.Has b) (hd : ¬ IsUndefined t op a b) :
    ∃ r, op.eval t a b = .ok r ∧ IsResult t op a b r ∧ t.Has r := by
  have hsum : ∀ x : Int, (t.bits ≤ 16 → i32.Has x) → (32 ≤ t.bits → t.signed = true → t.Has x) →
      ∃ r, (do let r ← t.promote.arith x; .ok (t.conv r)) = Outcome.ok r ∧ IsWrapped t x r ∧ t.Has r := fun x h1 h2 => by
    obtain ⟨r, h3, h4, h5⟩ := promoted_arith hv x h1 h2
    exact ⟨r, h3, isWrapped_of h4 h5, h4⟩
  cases op with
  | add =>
    refine hsum _ (fun h => ?_) fun h1 h2 => Classical.not_not.1 fun h3 => hd ⟨h2, h1, h3⟩
    obtain ⟨h1, h2⟩ := narrow_bounds h ha
    obtain ⟨h3, h4⟩ := narrow_bounds h (hb (by decide) (by decide))
    rw [has_i32]
    cases hs : t.signed
    · have := h2 hs; have := h4 hs; omega
    · have := h1 hs; have := h3 hs; omega
  | sub =>
    refine hsum _ (fun h => ?_) fun h1 h2 => Classical.not_not.1 fun h3 => hd ⟨h2, h1, h3⟩
    obtain ⟨h1, h2⟩ := narrow_bounds h ha
    obtain ⟨h3, h4⟩ := narrow_bounds h (hb (by decide) (by decide))
    rw [has_i32]
    cases hs : t.signed
    · have := h2 hs; have := h4 hs; omega
    · have := h1 hs; have := h3 hs; omega
  | mul =>
    refine hsum _ (fun h => ?_) fun h1 h2 => Classical.not_not.1 fun h3 => hd (.inl ⟨h2, h1, h3⟩)
    rw [narrow_mul h ha (hb (by decide) (by decide))]
    exact Int.not_le.1 fun h' => hd (.inr ⟨by omega, h'⟩)
  | div =>
    have hb0 : b ≠ 0 := fun h => hd (.inl h)
    have hbt := hb (by decide) (by decide)
    obtain ⟨r, h1, h2, h3⟩ := hsum (a.tdiv b) (fun h => by
        have h4 := tdiv_abs_le a b
        obtain ⟨h5, h6⟩ := narrow_bounds h ha
        rw [has_i32]
        cases hs : t.signed
        · have := h6 hs; omega
        · have := h5 hs; omega)
      fun h1 h2 => tdiv_has ha hbt fun h => hd (.inr ⟨h2, h1, h.2⟩)
    exact ⟨r, by rw [BinOp.eval, BinOp.evalIn, if_neg hb0]; exact h1, h2, h3⟩
  | mod =>
    have hb0 : b ≠ 0 := fun h => hd (.inl h)
    have hbt := hb (by decide) (by decide)
    obtain ⟨r, h1, h2, h3⟩ := hsum (a.tdiv b) (fun h => by
        have h4 := tdiv_abs_le a b
        obtain ⟨h5, h6⟩ := narrow_bounds h ha
        rw [has_i32]
        cases hs : t.signed
        · have := h6 hs; omega
        · have := h5 hs; omega)
      fun h1 h2 => tdiv_has ha hbt fun h => hd (.inr ⟨h2, h1, h.2⟩)
    have hmod : t.Has (a.tmod b) := by
      have hlt : (a.tmod b).natAbs ≤ a.natAbs := by rw [Int.natAbs_tmod]; exact Nat.mod_le _ _
      have hlm : t.lowest ≤ 0 ∧ 0 ≤ t.max := by
        have hpos : (0 : Int) < 2 ^ (t.bits - 1) := Int.pow_pos (by decide)
        have hpos' : (0 : Int) < 2 ^ t.bits := Int.pow_pos (by decide)
        unfold IntTy.lowest IntTy.max
        split <;> omega
      have hsgn : (0 ≤ a → 0 ≤ a.tmod b) ∧ (a ≤ 0 → a.tmod b ≤ 0) := by
        refine ⟨fun h => Int.tmod_nonneg _ h, fun h => ?_⟩
        have := Int.tmod_nonneg (a := -a) b (by omega)
        rw [Int.neg_tmod] at this; omega
      have h5 := ha.1; have h6 := ha.2
      rcases Int.le_total 0 a with h | h
      · have := hsgn.1 h; constructor <;> omega
      · have := hsgn.2 h; constructor <;> omega
    refine ⟨a.tmod b, ?_, rfl, hmod⟩
    rw [BinOp.eval, BinOp.evalIn, if_neg hb0]
    cases h4 : t.promote.arith (a.tdiv b) with
    | ok x => simp [conv_of_has hv.1 hmod]
    | ub u => simp [h4] at h1
    | trap => simp [h4] at h1
  | and =>
    have h := bitwise_spec hv (op := (· &&& ·)) (bop := (· && ·)) (fun x y j _ => by simp) a b
    exact ⟨_, rfl, h, h.1⟩
  | or =>
    have h := bitwise_spec hv (op := (· ||| ·)) (bop := (· || ·)) (fun x y j _ => by simp) a b
    exact ⟨_, rfl, h, h.1⟩
  | xor =>
    have h := bitwise_spec hv (op := (· ^^^ ·)) (bop := (· ^^ ·)) (fun x y j _ => by simp) a b
    exact ⟨_, rfl, h, h.1⟩
  | shl =>
    have hd' : ¬ (b < 0 ∨ (t.promote.bits : Int) ≤ b) := by
      intro h; apply hd
      rcases h with h | h
      · exact .inl h
      · refine .inr ?_
        rw [promote_bits] at h
        split <;> simp_all
    refine ⟨_, by rw [BinOp.eval, BinOp.evalIn, if_neg hd']; rfl, ?_, has_conv t hv.1 _⟩
    refine isWrapped_of (has_conv t hv.1 _) ?_
    rw [conv_emod]
    exact emod_pow_of_le (le_promote t) (conv_emod _ _)
  | shr =>
    have hd' : ¬ (b < 0 ∨ (t.promote.bits : Int) ≤ b) := by
      intro h; apply hd
      rcases h with h | h
      · exact .inl h
      · refine .inr ?_
        rw [promote_bits] at h
        split <;> simp_all
    have hr : t.Has (a / 2 ^ b.toNat) := by
      have hp : (0 : Int) < 2 ^ b.toNat := Int.pow_pos (by decide)
      have hlm : t.lowest ≤ 0 ∧ 0 ≤ t.max := by
        have hpos : (0 : Int) < 2 ^ (t.bits - 1) := Int.pow_pos (by decide)
        have hpos' : (0 : Int) < 2 ^ t.bits := Int.pow_pos (by decide)
        unfold IntTy.lowest IntTy.max
        split <;> omega
      have h5 := ha.1; have h6 := ha.2
      rcases Int.le_total 0 a with h | h
      · have h1 := Int.ediv_nonneg h (Int.le_of_lt hp)
        have h2 := Int.ediv_le_self (2 ^ b.toNat) h
        constructor <;> omega
      · have h1 : a / 2 ^ b.toNat ≤ 0 := by
          have := Int.ediv_le_ediv hp h
          simpa using this
        have h2 : a ≤ a / 2 ^ b.toNat := by
          rw [Int.le_ediv_iff_mul_le hp]
          have : a * 2 ^ b.toNat ≤ a * 1 := Int.mul_le_mul_of_nonpos_left h (by omega)
          omega
        constructor <;> omega
    refine ⟨a / 2 ^ b.toNat, ?_, rfl, hr⟩
    rw [BinOp.eval, BinOp.evalIn, if_neg hd']
    simp [conv_of_has hv.1 hr]

/-- **One lane.** An undefined operation is undefined. -/
theorem eval_ub (t : IntTy) (hv : ValidTy t) (op : BinOp) (a b : Int) (ha : t.Has a)
    (hb : op ≠ .shl → op ≠ .shr → t.Has b) (hd : IsUndefined t op a b) : ∃ u, op.eval t a b = .ub u := by
  have har : ∀ x, t.signed = true → 32 ≤ t.bits → ¬ t.Has x →
      (do let r ← t.promote.arith x; .ok (t.conv r)) = (Outcome.ub .overflow : Outcome Int) := fun x h1 h2 h3 => by
    rw [promote_wide h2, arith_ub h1 h3]; rfl
  cases op with
  | add => exact ⟨_, har _ hd.1 hd.2.1 hd.2.2⟩
  | sub => exact ⟨_, har _ hd.1 hd.2.1 hd.2.2⟩
  | mul =>
    rcases hd with hd | ⟨h1, h2⟩
    · exact ⟨_, har _ hd.1 hd.2.1 hd.2.2⟩
    · have h16 : t.bits ≤ 16 := by rcases hv.2 with h | h <;> omega
      refine ⟨.overflow, ?_⟩
      rw [BinOp.eval, BinOp.evalIn, promote_narrow h16, arith_ub (t := i32) rfl]
      · rfl
      · rw [narrow_mul h16 ha (hb (by decide) (by decide))]; omega
  | div =>
    rcases hd with hd | ⟨h1, h2, h3, h4⟩
    · exact ⟨_, by rw [BinOp.eval, BinOp.evalIn, if_pos hd]; rfl⟩
    · refine ⟨.overflow, ?_⟩
      rw [BinOp.eval, BinOp.evalIn, if_neg (by omega)]
      exact har _ h1 h2 (by rw [h3, h4]; exact lowest_tdiv_neg_one h1)
  | mod =>
    rcases hd with hd | ⟨h1, h2, h3, h4⟩
    · exact ⟨_, by rw [BinOp.eval, BinOp.evalIn, if_pos hd]; rfl⟩
    · refine ⟨.overflow, ?_⟩
      rw [BinOp.eval, BinOp.evalIn, if_neg (by omega), promote_wide h2,
        arith_ub h1 (by rw [h3, h4]; exact lowest_tdiv_neg_one h1)]
      rfl
  | and => exact hd.elim
  | or => exact hd.elim
  | xor => exact hd.elim
  | shl =>
    have hd' : b < 0 ∨ (t.promote.bits : Int) ≤ b := by
      rcases hd with h | h
      · exact .inl h
      · refine .inr ?_
        rw [promote_bits]; split at h <;> rename_i h'
        · rw [if_pos h']; exact h
        · rw [if_neg h']; exact h
    exact ⟨_, by rw [BinOp.eval, BinOp.evalIn, if_pos hd']; rfl⟩
  | shr =>
    have hd' : b < 0 ∨ (t.promote.bits : Int) ≤ b := by
      rcases hd with h | h
      · exact .inl h
      · refine .inr ?_
        rw [promote_bits]; split at h <;> rename_i h'
        · rw [if_pos h']; exact h
        · rw [if_neg h']; exact h
    exact ⟨_, by rw [BinOp.eval, BinOp.evalIn, if_pos hd']; rfl⟩

theorem eval_not_trap (t : IntTy) (op : BinOp) (a b : Int) : op.eval t a b ≠ .trap := by
  have har : ∀ (p : IntTy) x, p.arith x ≠ .trap := fun p x => by
    unfold IntTy.arith; split
    · split <;> simp
    · simp
  have hin : op.evalIn t.promote a b ≠ .trap := by
    cases op <;> simp only [BinOp.evalIn]
    · exact har _ _
    · exact har _ _
    · exact har _ _
    · split
      · simp
      · exact har _ _
    · split
      · simp
      · cases h : t.promote.arith (a.tdiv b) with
        | ok _ => simp
        | ub _ => simp
        | trap => exact absurd h (har _ _)
    · simp
    · simp
    · simp
    · split <;> simp
    · split <;> simp
  rw [BinOp.eval]
  cases h : op.evalIn t.promote a b with
  | ok _ => simp
  | ub _ => simp
  | trap => exact absurd h hin

end Vir
