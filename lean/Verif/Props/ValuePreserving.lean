import Mathlib.Algebra.Order.Field.Power
import Mathlib.Data.Rat.Lemmas
import Mathlib.Data.Int.Cast.Lemmas
import Mathlib.Tactic.Linarith
import Mathlib.Tactic.Positivity
import Mathlib.Tactic.Ring
import Mathlib.Tactic.FieldSimp
import Mathlib.Tactic.NormNum
import Mathlib.Tactic.ByContra
import Verif.Model.ValuePreserving

/-!
# C41: implicit conversions preserve values
-/

namespace Vir.Spec
open Vir.Convert

/-- `q` is a finite value of the floating-point format: an integer with `digits` bits times a power of two in the range of
exponents, including subnormal numbers. IEC 559: the smallest exponent follows from the largest. -/
def FloatValue (f : FloatTy) (q : ℚ) : Prop :=
  ∃ m e : ℤ, |m| < 2 ^ f.digits ∧ 3 - f.emax - f.digits ≤ e ∧ e ≤ f.emax - f.digits ∧ q = m * 2 ^ e

/-- `q` is a (finite) value of the type. -/
def IsValue (a : ArithTy) (q : ℚ) : Prop :=
  match a with
  | .bool => q = 0 ∨ q = 1
  | .int t _ => ∃ v : ℤ, t.Has v ∧ q = v
  | .float f _ => FloatValue f q

/-- The types of the claim: the integer types of 8 to 64 bits and floating-point types with the range of `float` at least. -/
def StandardTy : ArithTy → Prop
  | .bool => True
  | .int t _ => t ∈ [IntTy.i8, .u8, .i16, .u16, .i32, .u32, .i64, .u64]
  | .float f _ => 0 < f.digits ∧ f.digits < f.emax ∧ 128 ≤ f.emax

/-- `rnd` is a conversion to floating-point types in some rounding mode: exact on values and monotonic. -/
def IsRounding (rnd : FloatTy → ℚ → ℚ) : Prop :=
  ∀ f, (∀ q, FloatValue f q → rnd f q = q) ∧ ∀ p q, p ≤ q → rnd f p ≤ rnd f q

end Vir.Spec

namespace Vir.Convert
open Spec

/-! ### integers -/

/-- What the trait computes for integer types. -/
private def vpInt (s t : IntTy) : Bool :=
  decide ((if s.signed then s.bits - 1 else s.bits) ≤ (if t.signed then t.bits - 1 else t.bits))
    && decide ((commonInt s t).conv s.max ≤ (commonInt s t).conv t.max)
    && decide ((commonInt t s).conv t.lowest ≤ (commonInt t s).conv s.lowest) && !(s.signed && !t.signed)

private theorem vpInt_iff : ∀ s ∈ [⟨1, false⟩, IntTy.i8, .u8, .i16, .u16, .i32, .u32, .i64, .u64],
    ∀ t ∈ [IntTy.i8, .u8, .i16, .u16, .i32, .u32, .i64, .u64],
    (vpInt s t = true ↔ t.lowest ≤ s.lowest ∧ s.max ≤ t.max) := by decide +kernel

private theorem range_iff (s t : IntTy) (hs : s.lowest ≤ s.max) :
    (t.lowest ≤ s.lowest ∧ s.max ≤ t.max) ↔ ∀ v, s.Has v → t.Has v := by
  constructor
  · rintro ⟨h1, h2⟩ v ⟨g1, g2⟩; exact ⟨by omega, by omega⟩
  · intro h
    exact ⟨(h s.lowest ⟨by omega, hs⟩).1, (h s.max ⟨hs, by omega⟩).2⟩

private theorem nonempty : ∀ s ∈ [⟨1, false⟩, IntTy.i8, .u8, .i16, .u16, .i32, .u32, .i64, .u64], s.lowest ≤ s.max := by
  decide

private theorem core_int (rnd : FloatTy → ℚ → ℚ) (a b : ArithTy) (s t : IntTy) (ha : a.rep = .inl s) (hb : b.rep = .inl t) :
    (decide (a.digits ≤ b.digits) && leUsual rnd a b a.max b.max && leUsual rnd b a b.lowest a.lowest
      && !(a.isSigned && !b.isSigned)) = vpInt s t := by
  simp [ArithTy.digits, ArithTy.max, ArithTy.lowest, ArithTy.isSigned, leUsual, ha, hb, vpInt]

/-! ### floating point -/

private theorem int_floatValue (f : FloatTy) (hf : 0 < f.digits ∧ f.digits < f.emax) (v : ℤ) (hv : |v| ≤ 2 ^ f.digits) :
    FloatValue f v := by
  rcases lt_or_eq_of_le hv with h | h
  · exact ⟨v, 0, h, by omega, by omega, by simp⟩
  · obtain ⟨p, hp⟩ : ∃ p, f.digits = p + 1 := ⟨f.digits - 1, by omega⟩
    have h2 : |v| = 2 * 2 ^ p := by rw [h, hp, pow_succ]; ring
    have hpos : (0 : ℤ) < 2 ^ p := by positivity
    rcases abs_cases v with ⟨hc, _⟩ | ⟨hc, _⟩
    · refine ⟨2 ^ p, 1, ?_, by omega, by omega, ?_⟩
      · rw [abs_of_pos hpos, hp, pow_succ]; linarith
      · rw [show v = 2 * 2 ^ p by omega]; push_cast; ring
    · refine ⟨-2 ^ p, 1, ?_, by omega, by omega, ?_⟩
      · rw [abs_neg, abs_of_pos hpos, hp, pow_succ]; linarith
      · rw [show v = -(2 * 2 ^ p) by omega]; push_cast; ring

private theorem pow64_floatValue (f : FloatTy) (hf : 0 < f.digits ∧ f.digits < f.emax ∧ 128 ≤ f.emax) :
    FloatValue f (2 ^ 64) ∧ FloatValue f (-2 ^ 64) := by
  obtain ⟨p, hp⟩ : ∃ p, f.digits = p + 1 := ⟨f.digits - 1, by omega⟩
  have hpos : (0 : ℤ) < 2 ^ p := by positivity
  have key : (2 : ℚ) ^ 64 = ((2 ^ p : ℤ) : ℚ) * 2 ^ (64 - (p : ℤ)) := by
    push_cast
    rw [zpow_sub₀ (by norm_num), zpow_natCast]
    field_simp
  refine ⟨⟨2 ^ p, 64 - p, ?_, by omega, by omega, key⟩, ⟨-2 ^ p, 64 - p, ?_, by omega, by omega, ?_⟩⟩
  · rw [abs_of_pos hpos, hp, pow_succ]; linarith
  · rw [abs_neg, abs_of_pos hpos, hp, pow_succ]; linarith
  · rw [key]; push_cast; ring

private theorem max_floatValue (f : FloatTy) (hf : 0 < f.digits ∧ f.digits < f.emax) :
    FloatValue f f.max ∧ FloatValue f (-f.max) := by
  have h1 : (1 : ℤ) ≤ 2 ^ f.digits := one_le_pow₀ (by norm_num)
  have he : (2 : ℚ) ^ ((f.emax : ℤ) - f.digits) = 2 ^ (f.emax - f.digits) := by
    rw [← zpow_natCast]; congr 1; omega
  refine ⟨⟨2 ^ f.digits - 1, f.emax - f.digits, ?_, by omega, by omega, ?_⟩,
    ⟨-(2 ^ f.digits - 1), f.emax - f.digits, ?_, by omega, by omega, ?_⟩⟩
  · rw [abs_of_nonneg (by omega)]; omega
  · rw [he, FloatTy.max]; push_cast; rfl
  · rw [abs_neg, abs_of_nonneg (by omega)]; omega
  · rw [he, FloatTy.max]; push_cast; ring

private theorem floatValue_le_max (f : FloatTy) (hf : 0 < f.digits ∧ f.digits < f.emax) (q : ℚ) (h : FloatValue f q) :
    |q| ≤ f.max := by
  obtain ⟨m, e, hm, _, he, rfl⟩ := h
  have hE : (2 : ℚ) ^ ((f.emax : ℤ) - f.digits) = 2 ^ (f.emax - f.digits) := by
    rw [← zpow_natCast]; congr 1; omega
  rw [abs_mul, abs_of_pos (a := (2 : ℚ) ^ e) (by positivity), FloatTy.max, ← hE]
  have h1 : |(m : ℚ)| ≤ 2 ^ f.digits - 1 := by
    rw [← Int.cast_abs]
    have : |m| ≤ 2 ^ f.digits - 1 := by omega
    exact_mod_cast this
  have h2 : (2 : ℚ) ^ e ≤ 2 ^ ((f.emax : ℤ) - f.digits) := zpow_le_zpow_right₀ (by norm_num) he
  have h3 : (0 : ℚ) ≤ |(m : ℚ)| := abs_nonneg _
  have h4 : (0 : ℚ) < 2 ^ e := by positivity
  nlinarith

private theorem max_ge (f : FloatTy) (hf : 0 < f.digits ∧ f.digits < f.emax) : (2 : ℚ) ^ (f.emax - 1) ≤ f.max := by
  obtain ⟨p, hp⟩ : ∃ p, f.digits = p + 1 := ⟨f.digits - 1, by omega⟩
  have h : (2 : ℚ) ^ (f.emax - 1) = 2 ^ p * 2 ^ (f.emax - f.digits) := by rw [← pow_add]; congr 1; omega
  have h1 : (1 : ℚ) ≤ 2 ^ p := one_le_pow₀ (by norm_num)
  rw [h, FloatTy.max]
  apply mul_le_mul_of_nonneg_right _ (by positivity)
  rw [hp, pow_succ]; linarith

private theorem max_lt (f : FloatTy) (hf : 0 < f.digits ∧ f.digits < f.emax) : f.max < (2 : ℚ) ^ f.emax := by
  have h : (2 : ℚ) ^ f.emax = 2 ^ f.digits * 2 ^ (f.emax - f.digits) := by rw [← pow_add]; congr 1; omega
  rw [h, FloatTy.max]
  apply mul_lt_mul_of_pos_right _ (by positivity)
  linarith

/-- An odd integer needs as many digits as it has bits. -/
private theorem odd_floatValue (f : FloatTy) (v : ℤ) (hodd : v % 2 = 1) (hv : FloatValue f v) : |v| < 2 ^ f.digits := by
  obtain ⟨m, e, hm, _, _, hq⟩ := hv
  rcases lt_or_ge 0 e with he | he
  · exfalso
    obtain ⟨k, rfl⟩ : ∃ k : ℕ, e = k + 1 := ⟨(e - 1).toNat, by omega⟩
    have : v = m * 2 ^ (k + 1) := by
      have h : (v : ℚ) = ((m * 2 ^ (k + 1) : ℤ) : ℚ) := by
        rw [hq]; push_cast; rw [← zpow_natCast]; push_cast; rfl
      exact_mod_cast h
    rw [this, pow_succ, ← mul_assoc] at hodd
    omega
  · obtain ⟨k, rfl⟩ : ∃ k : ℕ, e = -k := ⟨(-e).toNat, by omega⟩
    have : v * 2 ^ k = m := by
      have h : ((v * 2 ^ k : ℤ) : ℚ) = (m : ℚ) := by
        push_cast; rw [hq, zpow_neg, zpow_natCast]; field_simp
      exact_mod_cast h
    have h1 : (1 : ℤ) ≤ 2 ^ k := one_le_pow₀ (by norm_num)
    have h2 : |v| * 2 ^ k = |m| := by rw [← this, abs_mul, abs_of_pos (a := (2 : ℤ) ^ k) (by positivity)]
    have h3 := abs_nonneg v
    nlinarith

/-- The values of an integer type are within the given number of bits. -/
private theorem int_bounds : ∀ t ∈ [⟨1, false⟩, IntTy.i8, .u8, .i16, .u16, .i32, .u32, .i64, .u64],
    t.max = 2 ^ (if t.signed then t.bits - 1 else t.bits) - 1 ∧
    -2 ^ (if t.signed then t.bits - 1 else t.bits) ≤ t.lowest ∧ t.lowest ≤ 0 ∧ t.max ≤ 2 ^ 64 ∧ -2 ^ 64 ≤ t.lowest := by decide

private theorem int_float (rnd : FloatTy → ℚ → ℚ) (hr : IsRounding rnd) (a b : ArithTy) (s : IntTy) (f : FloatTy)
    (ha : a.rep = .inl s) (hb : b.rep = .inr f)
    (hs : s ∈ [⟨1, false⟩, IntTy.i8, .u8, .i16, .u16, .i32, .u32, .i64, .u64])
    (hf : 0 < f.digits ∧ f.digits < f.emax ∧ 128 ≤ f.emax) :
    (decide (a.digits ≤ b.digits) && leUsual rnd a b a.max b.max && leUsual rnd b a b.lowest a.lowest
      && !(a.isSigned && !b.isSigned)) = true ↔ ∀ v : ℤ, s.Has v → FloatValue f v := by
  obtain ⟨h1, h2, h3, h4, h5⟩ := int_bounds s hs
  have hmax := max_ge f ⟨hf.1, hf.2.1⟩
  have hbig : (2 : ℚ) ^ 64 ≤ f.max :=
    le_trans (pow_le_pow_right₀ (by norm_num) (by omega)) hmax
  have hr64 := (hr f).1 _ (pow64_floatValue f hf).1
  have hrm64 := (hr f).1 _ (pow64_floatValue f hf).2
  have g1 : rnd f (s.max : ℚ) ≤ f.max := by
    refine le_trans ((hr f).2 _ (2 ^ 64) ?_) (hr64 ▸ hbig)
    exact_mod_cast h4
  have g2 : -f.max ≤ rnd f (s.lowest : ℚ) := by
    refine le_trans ?_ ((hr f).2 (-2 ^ 64) _ ?_)
    · rw [hrm64]; linarith
    · exact_mod_cast h5
  simp only [ArithTy.digits, ArithTy.max, ArithTy.lowest, ArithTy.isSigned, leUsual, ha, hb, g1, g2, decide_true,
    Bool.and_true, Bool.not_true, Bool.and_false, Bool.not_false, decide_eq_true_eq]
  generalize (if s.signed = true then s.bits - 1 else s.bits) = d at *
  constructor
  · intro hd v hv
    refine int_floatValue f ⟨hf.1, hf.2.1⟩ v (le_trans ?_ (pow_le_pow_right₀ (a := (2 : ℤ)) (by norm_num) hd))
    have := hv.1; have := hv.2
    rw [abs_le]; constructor <;> omega
  · intro h
    by_contra hd
    have h2p : (2 : ℤ) ^ (f.digits + 1) ≤ 2 ^ d := pow_le_pow_right₀ (by norm_num) (by omega)
    obtain ⟨p, hp⟩ : ∃ p, f.digits = p + 1 := ⟨f.digits - 1, by omega⟩
    have hpos : (1 : ℤ) ≤ 2 ^ p := one_le_pow₀ (by norm_num)
    have e1 : (2 : ℤ) ^ f.digits = 2 * 2 ^ p := by rw [hp, pow_succ]; ring
    have e2 : (2 : ℤ) ^ (f.digits + 1) = 2 * (2 * 2 ^ p) := by rw [pow_succ, e1]; ring
    have := odd_floatValue f (2 ^ f.digits + 1) (by omega) (h _ ⟨by omega, by omega⟩)
    rw [abs_of_pos (by omega)] at this
    omega

private theorem float_int (rnd : FloatTy → ℚ → ℚ) (hr : IsRounding rnd) (a b : ArithTy) (f : FloatTy) (t : IntTy)
    (ha : a.rep = .inr f) (hb : b.rep = .inl t)
    (ht : t ∈ [⟨1, false⟩, IntTy.i8, .u8, .i16, .u16, .i32, .u32, .i64, .u64])
    (hf : 0 < f.digits ∧ f.digits < f.emax ∧ 128 ≤ f.emax) :
    (decide (a.digits ≤ b.digits) && leUsual rnd a b a.max b.max && leUsual rnd b a b.lowest a.lowest
      && !(a.isSigned && !b.isSigned)) = false ∧ ¬ ∀ q, FloatValue f q → ∃ v : ℤ, t.Has v ∧ q = v := by
  obtain ⟨h1, h2, h3, h4, h5⟩ := int_bounds t ht
  constructor
  · have hmax := max_ge f ⟨hf.1, hf.2.1⟩
    have hbig : (2 : ℚ) ^ 64 < f.max := lt_of_lt_of_le (pow_lt_pow_right₀ (by norm_num) (by omega)) hmax
    have hr64 := (hr f).1 _ (pow64_floatValue f hf).1
    have g1 : ¬ f.max ≤ rnd f (t.max : ℚ) := by
      have : rnd f (t.max : ℚ) ≤ 2 ^ 64 := by
        conv_rhs => rw [← hr64]
        refine (hr f).2 _ _ ?_
        exact_mod_cast h4
      intro h; linarith
    simp [leUsual, ArithTy.max, ha, hb, g1]
  · intro h
    obtain ⟨v, _, hv⟩ := h (1 / 2) ⟨1, -1, by
      rw [abs_one]; exact one_lt_pow₀ (by norm_num) (by omega), by omega, by omega, by norm_num⟩
    have : (1 : ℚ) = ((2 * v : ℤ) : ℚ) := by push_cast; rw [← hv]; norm_num
    have : (1 : ℤ) = 2 * v := by exact_mod_cast this
    omega

private theorem float_float (rnd : FloatTy → ℚ → ℚ) (a b : ArithTy) (f g : FloatTy)
    (ha : a.rep = .inr f) (hb : b.rep = .inr g) (hf : 0 < f.digits ∧ f.digits < f.emax)
    (hg : 0 < g.digits ∧ g.digits < g.emax) :
    (decide (a.digits ≤ b.digits) && leUsual rnd a b a.max b.max && leUsual rnd b a b.lowest a.lowest
      && !(a.isSigned && !b.isSigned)) = true ↔ ∀ q, FloatValue f q → FloatValue g q := by
  simp only [ArithTy.digits, ArithTy.max, ArithTy.lowest, ArithTy.isSigned, leUsual, ha, hb, Bool.not_true,
    Bool.and_false, Bool.not_false, Bool.and_true, Bool.and_eq_true, decide_eq_true_eq, neg_le_neg_iff]
  constructor
  · rintro ⟨⟨hd, hm⟩, _⟩ q ⟨m, e, h1, h2, h3, rfl⟩
    have hE : f.emax ≤ g.emax := by
      by_contra hlt
      have := max_ge f hf
      have := max_lt g hg
      have : (2 : ℚ) ^ g.emax ≤ 2 ^ (f.emax - 1) := pow_le_pow_right₀ (by norm_num) (by omega)
      linarith
    -- move the mantissa up when the exponent is beyond the range of `g`
    by_cases he : e ≤ g.emax - g.digits
    · refine ⟨m, e, lt_of_lt_of_le h1 (pow_le_pow_right₀ (by norm_num) hd), by omega, he, rfl⟩
    · obtain ⟨k, hk⟩ : ∃ k : ℕ, e = (g.emax : ℤ) - g.digits + k := ⟨(e - (g.emax - g.digits)).toNat, by omega⟩
      refine ⟨m * 2 ^ k, g.emax - g.digits, ?_, by omega, by omega, ?_⟩
      · rw [abs_mul, abs_of_pos (a := (2 : ℤ) ^ k) (by positivity)]
        have : (2 : ℤ) ^ f.digits * 2 ^ k ≤ 2 ^ g.digits := by
          rw [← pow_add]; exact pow_le_pow_right₀ (by norm_num) (by omega)
        have hk0 : (0 : ℤ) < 2 ^ k := by positivity
        nlinarith
      · push_cast
        rw [hk, zpow_add₀ (by norm_num), zpow_natCast]; ring
  · intro h
    have hm : f.max ≤ g.max := le_trans (le_abs_self _) (floatValue_le_max g hg _ (h _ (max_floatValue f hf).1))
    refine ⟨⟨?_, hm⟩, hm⟩
    by_contra hd
    obtain ⟨p, hp⟩ : ∃ p, f.digits = p + 1 := ⟨f.digits - 1, by omega⟩
    have hpos : (1 : ℤ) ≤ 2 ^ p := one_le_pow₀ (by norm_num)
    have e1 : (2 : ℤ) ^ f.digits = 2 * 2 ^ p := by rw [hp, pow_succ]; ring
    have hval : FloatValue f ((2 ^ f.digits - 1 : ℤ) : ℚ) :=
      int_floatValue f hf _ (by rw [abs_of_nonneg (by omega)]; omega)
    have := odd_floatValue g _ (by omega) (h _ hval)
    rw [abs_of_nonneg (by omega)] at this
    have : (2 : ℤ) ^ g.digits ≤ 2 ^ p := pow_le_pow_right₀ (by norm_num) (by omega)
    omega

/-- **C41.** A type other than `bool` is the target of a value-preserving conversion exactly if it has every value of the
source type. -/
theorem valuePreserving_iff (rnd : FloatTy → ℚ → ℚ) (hr : IsRounding rnd) (src dst : ArithTy) (hs : StandardTy src)
    (hd : StandardTy dst) (hb : dst ≠ .bool) :
    valuePreserving rnd src dst = true ↔ ∀ q, IsValue src q → IsValue dst q := by
  unfold valuePreserving
  rw [if_neg hb]
  by_cases he : src = dst
  · subst he; simp
  rw [if_neg he]
  have hbool : ∀ q : ℚ, (q = 0 ∨ q = 1) ↔ ∃ v : ℤ, (⟨1, false⟩ : IntTy).Has v ∧ q = v := by
    intro q
    constructor
    · rintro (rfl | rfl)
      · exact ⟨0, by decide, by simp⟩
      · exact ⟨1, by decide, by simp⟩
    · rintro ⟨v, ⟨h1, h2⟩, rfl⟩
      have h1 : (0 : ℤ) ≤ v := h1
      have h2 : v ≤ 1 := h2
      rcases (show v = 0 ∨ v = 1 by omega) with rfl | rfl <;> simp
  have ints (s t : IntTy) : (∀ q : ℚ, (∃ v : ℤ, s.Has v ∧ q = v) → ∃ v : ℤ, t.Has v ∧ q = v) ↔
      ∀ v : ℤ, s.Has v → t.Has v := by
    constructor
    · intro h v hv
      obtain ⟨w, hw, heq⟩ := h v ⟨v, hv, rfl⟩
      rw [show v = w by exact_mod_cast heq]; exact hw
    · rintro h q ⟨v, hv, rfl⟩; exact ⟨v, h v hv, rfl⟩
  have fl (s : IntTy) (f : FloatTy) : (∀ q : ℚ, (∃ v : ℤ, s.Has v ∧ q = v) → FloatValue f q) ↔
      ∀ v : ℤ, s.Has v → FloatValue f v :=
    ⟨fun h v hv => h v ⟨v, hv, rfl⟩, by rintro h q ⟨v, hv, rfl⟩; exact h v hv⟩
  cases dst with
  | bool => exact absurd rfl hb
  | int t tag =>
    have hd : t ∈ [IntTy.i8, .u8, .i16, .u16, .i32, .u32, .i64, .u64] := hd
    cases src with
    | bool =>
      rw [core_int rnd _ _ ⟨1, false⟩ t rfl rfl, vpInt_iff _ (by simp) _ hd,
        range_iff _ _ (nonempty _ (by simp)), ← ints]
      simp only [IsValue, hbool]
    | int s stag =>
      have hs : s ∈ [IntTy.i8, .u8, .i16, .u16, .i32, .u32, .i64, .u64] := hs
      have hs' := List.mem_cons_of_mem (⟨1, false⟩ : IntTy) hs
      rw [core_int rnd _ _ s t rfl rfl, vpInt_iff _ hs' _ hd, range_iff _ _ (nonempty _ hs'), ← ints]
      rfl
    | float f stag =>
      obtain ⟨h1, h2⟩ := float_int rnd hr (.float f stag) (.int t tag) f t rfl rfl (List.mem_cons_of_mem _ hd) hs
      rw [h1]
      simp only [Bool.false_eq_true, false_iff]
      exact h2
  | float g tag =>
    have hg : 0 < g.digits ∧ g.digits < g.emax ∧ 128 ≤ g.emax := hd
    cases src with
    | bool =>
      rw [int_float rnd hr .bool (.float g tag) ⟨1, false⟩ g rfl rfl (by simp) hg, ← fl]
      simp only [IsValue, hbool]
    | int s stag =>
      have hs : s ∈ [IntTy.i8, .u8, .i16, .u16, .i32, .u32, .i64, .u64] := hs
      rw [int_float rnd hr (.int s stag) (.float g tag) s g rfl rfl (List.mem_cons_of_mem _ hs) hg, ← fl]
      rfl
    | float f stag =>
      have hf : 0 < f.digits ∧ f.digits < f.emax ∧ 128 ≤ f.emax := hs
      exact float_float rnd (.float f stag) (.float g tag) f g rfl rfl ⟨hf.1, hf.2.1⟩ ⟨hg.1, hg.2.1⟩

/-- **C41.** Only `bool` converts to `bool`. -/
theorem valuePreserving_bool (rnd : FloatTy → ℚ → ℚ) (src : ArithTy) :
    valuePreserving rnd src .bool = true ↔ src = .bool := by simp [valuePreserving]

/-- **C41.** If a broadcast of a type other than `int` (and other than `unsigned` to an unsigned type) is accepted, every
value of the source type is a value of the element type. -/
theorem acceptsBroadcast_preserves (rnd : FloatTy → ℚ → ℚ) (hr : IsRounding rnd) (src dst : ArithTy) (hs : StandardTy src)
    (hd : StandardTy dst) (h : acceptsBroadcast rnd src dst = true) (hint : src ≠ .cint)
    (huint : ¬ (src = .cuint ∧ dst.isSigned = false)) : ∀ q, IsValue src q → IsValue dst q := by
  have h : src = dst ∨ valuePreserving rnd src dst = true := by
    simp only [acceptsBroadcast, Bool.or_eq_true, decide_eq_true_eq, Bool.and_eq_true, Bool.not_eq_true'] at h
    rcases h with ((h | h) | h) | h
    · exact .inl h
    · exact absurd h hint
    · exact absurd h huint
    · exact .inr h
  rcases h with rfl | h
  · exact fun q hq => hq
  by_cases hb : dst = .bool
  · subst hb
    rw [valuePreserving_bool] at h; subst h; exact fun q hq => hq
  · exact (valuePreserving_iff rnd hr src dst hs hd hb).1 h

/-- **C41.** Exactly these broadcasts are accepted: of the same type, of `int`, of `unsigned` to unsigned types, and, to types
other than `bool`, of types all of whose values the element type has. -/
theorem acceptsBroadcast_iff (rnd : FloatTy → ℚ → ℚ) (hr : IsRounding rnd) (src dst : ArithTy) (hs : StandardTy src)
    (hd : StandardTy dst) (hb : dst ≠ .bool) :
    acceptsBroadcast rnd src dst = true ↔
      src = .cint ∨ (src = .cuint ∧ dst.isSigned = false) ∨ ∀ q, IsValue src q → IsValue dst q := by
  rw [← valuePreserving_iff rnd hr src dst hs hd hb]
  simp only [acceptsBroadcast, Bool.or_eq_true, decide_eq_true_eq, Bool.and_eq_true, Bool.not_eq_true']
  constructor
  · rintro (((h | h) | h) | h)
    · subst h; exact .inr (.inr (by unfold valuePreserving; rw [if_neg hb, if_pos rfl]))
    · exact .inl h
    · exact .inr (.inl h)
    · exact .inr (.inr h)
  · rintro (h | h | h)
    · exact .inl (.inl (.inr h))
    · exact .inl (.inr h)
    · exact .inr h

/-- **C41.** Implicit conversions between vectors preserve every value. -/
theorem acceptsConversion_preserves (rnd : FloatTy → ℚ → ℚ) (hr : IsRounding rnd) (rank : ArithTy → ArithTy → Bool)
    (src dst : ArithTy) (hs : StandardTy src) (hd : StandardTy dst) (h : acceptsConversion rnd rank src dst = true) :
    ∀ q, IsValue src q → IsValue dst q := by
  have h : valuePreserving rnd src dst = true := by
    simp only [acceptsConversion, Bool.and_eq_true] at h; exact h.1
  by_cases hb : dst = .bool
  · subst hb
    rw [valuePreserving_bool] at h; subst h; exact fun q hq => hq
  · exact (valuePreserving_iff rnd hr src dst hs hd hb).1 h

/-- **C41, limit of the claim.** `int` is accepted for every element type, whether or not it has the values. -/
theorem acceptsBroadcast_int (rnd : FloatTy → ℚ → ℚ) :
    acceptsBroadcast rnd .cint (.int .i8 0) = true ∧ IsValue .cint 1000 ∧ ¬ IsValue (.int .i8 0) 1000 := by
  refine ⟨by simp [acceptsBroadcast], ⟨1000, by decide, by norm_num⟩, ?_⟩
  rintro ⟨v, ⟨_, h2⟩, hv⟩
  have : (1000 : ℤ) = v := by exact_mod_cast hv
  have h3 : v ≤ 127 := h2
  omega

/-! ### the theorems are about something -/

/-- A rounding: toward minus infinity on a coarse grid is not needed, the identity is exact and monotonic. -/
example : IsRounding fun _ q => q := fun _ => ⟨fun _ _ => rfl, fun _ _ h => h⟩
example : StandardTy (.float .float 0) ∧ StandardTy (.float .double 1) ∧ StandardTy (.float .longDouble 2) ∧
    StandardTy (.int .u16 0) := by
  refine ⟨?_, ?_, ?_, ?_⟩ <;> simp [StandardTy, FloatTy.float, FloatTy.double, FloatTy.longDouble]
/-- `short` to `float` is implicit, `int` vectors to `float` are not, `signed char` to `unsigned` is not. -/
example : valuePreserving (fun _ q => q) (.int .i16 0) (.float .float 0) = true ∧
    valuePreserving (fun _ q => q) (.int .i32 0) (.float .float 0) = false ∧
    valuePreserving (fun _ q => q) (.int .i8 0) (.int .u32 0) = false ∧
    valuePreserving (fun _ q => q) (.float .float 0) (.float .double 1) = true := by decide +kernel

/-! ## The theorems applied to concrete data -/

private theorem idRounding : IsRounding fun _ q => q := fun _ => ⟨fun _ _ => rfl, fun _ _ h => h⟩
private theorem stdF32 : StandardTy (.float .float 0) := by simp [StandardTy, FloatTy.float, FloatTy.double, FloatTy.longDouble]
private theorem stdI16 : StandardTy (.int .i16 0) := by simp [StandardTy]

example := valuePreserving_iff _ idRounding _ _ stdI16 stdF32 (by simp)
example := acceptsBroadcast_preserves _ idRounding _ _ stdI16 stdF32 (by decide +kernel) (by decide) (by decide)
example := acceptsConversion_preserves _ idRounding (fun _ _ => true) _ _ stdI16 stdF32 (by decide +kernel)

end Vir.Convert
