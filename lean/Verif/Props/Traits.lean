import Verif.Spec.Traits

/-!
# C75: type traits, ABI deduction and concepts
-/

namespace Vir.Traits

open Spec

/-- `int` and `float`, for the examples. -/
def int32 : Ty := .num ⟨0, 4, 4, false⟩
def float32 : Ty := .num ⟨1, 4, 4, true⟩
def ldouble : Ty := .num ⟨2, 16, 16, true⟩

/-! ### Which types are simds -/

theorem isVectorizable_num (a : Num) : isVectorizable (.num a) = true := rfl

private theorem vec_plain {t : Ty} (h : ∀ u, t ≠ .const u) : isVectorizable t = true ↔ ElementTy t := by
  cases t with
  | const u => exact absurd rfl (h u)
  | num a => exact ⟨fun _ => ⟨a, rfl⟩, fun _ => rfl⟩
  | _ => exact ⟨by intro h; revert h; simp [isVectorizable, isArithmetic], by rintro ⟨a, h⟩; cases h⟩

/-- `is_simd_v<V>` is true exactly for the simds of the TS, if `V` has no cv-qualified element type and no ABI tag with a size below one. -/
theorem isSimd_partial (v : Ty) (hv : Plain v) : isSimd v = true ↔ AnySimd v := by
  cases v with
  | simd t a =>
    obtain ⟨h1, h2⟩ := hv
    simp only [isSimd, Bool.and_eq_true, vec_plain h1]
    constructor
    · rintro ⟨ht, ha⟩
      cases a with
      | scalar => exact ⟨t, 1, ht, Nat.le_refl 1, .inl ⟨rfl, rfl⟩⟩
      | fixedSize n =>
        have := h2 n rfl
        exact ⟨t, n.toNat, ht, by omega, .inr (by rw [show ((n.toNat : Nat) : Int) = n by omega])⟩
      | _ => simp [isAbiTag] at ha
    · rintro ⟨t', n, ht, -, ⟨h, -⟩ | h⟩ <;> (cases h; exact ⟨ht, rfl⟩)
  | _ => exact ⟨by simp [isSimd], by rintro ⟨t', n, -, -, ⟨h, -⟩ | h⟩ <;> cases h⟩

/-- The same for `is_simd_mask_v`. -/
theorem isSimdMask_partial (v : Ty) (hv : Plain v) : isSimdMask v = true ↔ AnyMask v := by
  cases v with
  | mask t a =>
    obtain ⟨h1, h2⟩ := hv
    simp only [isSimdMask, Bool.and_eq_true, vec_plain h1]
    constructor
    · rintro ⟨ht, ha⟩
      cases a with
      | scalar => exact ⟨t, 1, ht, Nat.le_refl 1, .inl ⟨rfl, rfl⟩⟩
      | fixedSize n =>
        have := h2 n rfl
        exact ⟨t, n.toNat, ht, by omega, .inr (by rw [show ((n.toNat : Nat) : Int) = n by omega])⟩
      | _ => simp [isAbiTag] at ha
    · rintro ⟨t', n, ht, -, ⟨h, -⟩ | h⟩ <;> (cases h; exact ⟨ht, rfl⟩)
  | _ => exact ⟨by simp [isSimdMask], by rintro ⟨t', n, -, -, ⟨h, -⟩ | h⟩ <;> cases h⟩

example : Plain (.simd int32 (.fixedSize 4)) ∧ AnySimd (.simd int32 (.fixedSize 4)) :=
  ⟨⟨fun u h => by simp [int32] at h, fun n h => by cases h; decide⟩, int32, 4, ⟨_, rfl⟩, by decide, .inr rfl⟩

/-- Without that condition it is not: `simd<const bool, fixed_size<-3>>` is one, according to `is_simd_v`. -/
theorem isSimd_not_exact : ∃ v, isSimd v = true ∧ ¬ AnySimd v :=
  ⟨.simd (.const .bool) (.fixedSize (-3)), rfl, by rintro ⟨t', n, ⟨a, rfl⟩, -, ⟨h, -⟩ | h⟩ <;> cases h⟩

/-- What is true of all types: every simd and every mask of the TS is recognised, and what is recognised is a specialization of `simd`, or of
`simd_mask`. -/
theorem isSimd_complete (v : Ty) : (AnySimd v → isSimd v = true) ∧ (AnyMask v → isSimdMask v = true) ∧
    (isSimd v = true → ∃ t a, v = .simd t a) ∧ (isSimdMask v = true → ∃ t a, v = .mask t a) := by
  refine ⟨?_, ?_, ?_, ?_⟩
  · rintro ⟨t', n, ⟨a, rfl⟩, -, ⟨h, -⟩ | h⟩ <;> (cases h; rfl)
  · rintro ⟨t', n, ⟨a, rfl⟩, -, ⟨h, -⟩ | h⟩ <;> (cases h; rfl)
  · intro h
    cases v with
    | simd t a => exact ⟨t, a, rfl⟩
    | _ => simp [isSimd] at h
  · intro h
    cases v with
    | mask t a => exact ⟨t, a, rfl⟩
    | _ => simp [isSimdMask] at h

/-- `is_simd_flag_type_v` is false of every type, also of the flags. -/
theorem isSimdFlagType_false : (∀ v, isSimdFlagType v = false) ∧ isSimdFlagType .elementAligned = false ∧
    isSimdFlagType .vectorAligned = false ∧ ∀ n, isSimdFlagType (.overaligned n) = false :=
  ⟨fun _ => rfl, rfl, rfl, fun _ => rfl⟩

/-! ### Sizes -/

/-- `simd_size_v<T, A>` is the number of elements of `simd<T, A>` and `simd_mask<T, A>`, and what their `size()` returns. -/
theorem simdSize_spec (t a : Ty) (n : Nat) :
    (IsSimdOf (.simd t a) t n → simdSize t a = some n ∧ sizeMember (.simd t a) = some n) ∧
    (IsMaskOf (.mask t a) t n → simdSize t a = some n ∧ sizeMember (.mask t a) = some n) := by
  constructor <;> rintro ⟨⟨b, rfl⟩, hn, ⟨h, rfl⟩ | h⟩ <;> cases h <;>
    simp [simdSize, sizeMember, valueType, isVectorizable_num]

/-- It has no value for other types. -/
theorem simdSize_defined (t a : Ty) (n : Nat) (h : simdSize t a = some n) :
    isSimd (.simd t a) = true ∧ isSimdMask (.mask t a) = true ∧ sizeMember (.simd t a) = some n ∧
      sizeMember (.mask t a) = some n := by
  cases a with
  | scalar =>
    simp only [simdSize] at h
    split at h
    · next hv => cases h; simp [isSimd, isSimdMask, sizeMember, valueType, isAbiTag, hv]
    · cases h
  | fixedSize m =>
    simp only [simdSize] at h
    split at h
    · next hv =>
      simp only [Bool.and_eq_true, decide_eq_true_eq] at hv
      cases h; simp [isSimd, isSimdMask, sizeMember, valueType, isAbiTag, hv.1, hv.2]
    · cases h
  | _ => simp [simdSize] at h

example : simdSize int32 (.fixedSize 5) = some 5 ∧ simdSize int32 .scalar = some 1 ∧ simdSize .bool .scalar = none := by decide

private theorem toInt_of_lt {n : Nat} (h : n < 2 ^ 31) : toInt n = n := by
  simp only [toInt, IntTy.conv, IntTy.i32, if_true]
  apply Int.bmod_eq_of_le <;> omega

/-- `simd<T, deduce_t<T, N>>` has `N` elements, for every `N` that is representable in an `int`. -/
theorem deduce_partial (t : Ty) (ht : ElementTy t) (n : Nat) (h0 : 1 ≤ n) (h : n < 2 ^ 31) :
    IsSimdOf (.simd t (deduce n)) t n ∧ IsMaskOf (.mask t (deduce n)) t n ∧ simdSize t (deduce n) = some n := by
  have key : IsSimdOf (.simd t (deduce n)) t n ∧ IsMaskOf (.mask t (deduce n)) t n := by
    unfold deduce
    split
    · next h1 => exact ⟨⟨ht, h0, .inl ⟨rfl, h1⟩⟩, ht, h0, .inl ⟨rfl, h1⟩⟩
    · have : toInt n = n := toInt_of_lt h
      rw [this]
      exact ⟨⟨ht, h0, .inr rfl⟩, ht, h0, .inr rfl⟩
  exact ⟨key.1, key.2, ((simdSize_spec t _ n).1 key.1).1⟩

example : deduce 1 = .scalar ∧ deduce 7 = .fixedSize 7 := by decide

/-- For larger `N` it may have any other number of elements, and also for zero there is a type. -/
theorem deduce_wraps : simdSize int32 (deduce 4294967300) = some 4 ∧ simdSize int32 (deduce 0) = some 0 ∧
    simdSize int32 (deduce 4294967295) = none := by decide +kernel

/-! ### Native and compatible ABI -/

private theorem pow_le8 {k : Nat} (h : (2 : Nat) ^ k ≤ 8) : k = 0 ∨ k = 1 ∨ k = 2 ∨ k = 3 := by
  have : k < 4 := Nat.lt_of_not_le fun h' => by
    have := Nat.pow_le_pow_right (show 0 < 2 by decide) h'
    omega
  omega

/-- `native_simd<T>` and `simd<T>` of an element type of 1, 2, 4 or 8 bytes fill a register completely; the first has at least as many elements as
the second; both numbers of elements are powers of two. -/
theorem native_spec (isa : Isa) (a : Num) (hs : PowerOfTwo a.size) (h8 : a.size ≤ 8) :
    ∃ A B n c, native isa (.num a) = some A ∧ compatible (.num a) = some B ∧
      IsSimdOf (.simd (.num a) A) (.num a) n ∧ IsSimdOf (.simd (.num a) B) (.num a) c ∧
      n * a.size = registerBytes isa a.floating ∧ c * a.size = 16 ∧ c ≤ n ∧ PowerOfTwo n ∧ PowerOfTwo c := by
  obtain ⟨k, hk⟩ := hs
  have hk4 := pow_le8 (hk ▸ h8)
  have hb : isa.bytes (.num a) = 16 ∨ isa.bytes (.num a) = 32 ∨ isa.bytes (.num a) = 64 := by
    cases isa <;> simp [Isa.bytes]
    split <;> simp
  have hreg : registerBytes isa a.floating = isa.bytes (.num a) := by
    cases isa <;> cases hfl : a.floating <;> simp [registerBytes, Isa.bytes, isFloating, hfl]
  rw [hreg]
  refine ⟨.fixedSize ((isa.bytes (.num a) / a.size : Nat)), .fixedSize ((16 / a.size : Nat)),
    isa.bytes (.num a) / a.size, 16 / a.size, ?_, ?_, ⟨⟨a, rfl⟩, ?_, .inr rfl⟩, ⟨⟨a, rfl⟩, ?_, .inr rfl⟩, ?_, ?_, ?_, ?_, ?_⟩
  · simp [native, sizeOf]; omega
  · simp [compatible, sizeOf]; omega
  all_goals (rw [hk]; try (rcases hb with h | h | h <;> rw [h]))
  all_goals (rcases hk4 with h | h | h | h <;> subst h)
  all_goals first | decide | skip
  all_goals (first | exact ⟨0, by decide⟩ | exact ⟨1, by decide⟩ | exact ⟨2, by decide⟩ | exact ⟨3, by decide⟩ |
    exact ⟨4, by decide⟩ | exact ⟨5, by decide⟩ | exact ⟨6, by decide⟩)

/-- Larger element types have one element. -/
theorem native_large (isa : Isa) (a : Num) (h8 : 8 < a.size) :
    native isa (.num a) = some .scalar ∧ compatible (.num a) = some .scalar := by
  simp [native, compatible, sizeOf]; omega

example : native .avx512 int32 = some (.fixedSize 16) ∧ native .avx float32 = some (.fixedSize 8) ∧
    native .avx int32 = some (.fixedSize 4) ∧ native .avx2 ldouble = some .scalar := by decide

/-- `max_fixed_size` (`/repo/vir/simd.h` 419-420). -/
def maxFixedSize : Int := 32

/-- The native simd of a byte can have more elements than `max_fixed_size` says a fixed-size simd may have. -/
theorem native_exceeds : ∃ n : Int, native .avx512 (.num ⟨3, 1, 1, false⟩) = some (.fixedSize n) ∧ maxFixedSize < n :=
  ⟨64, by decide, by decide⟩

/-! ### rebind_simd -/

/-- `rebind_simd_t<U, V>` has elements of type `U`, as many as `V`, and is a mask if `V` is. -/
theorem rebind_spec (u t v : Ty) (n : Nat) (hu : ElementTy u) :
    (IsSimdOf v t n → ∃ w, rebindSimd u v = some w ∧ IsSimdOf w u n) ∧
    (IsMaskOf v t n → ∃ w, rebindSimd u v = some w ∧ IsMaskOf w u n) := by
  obtain ⟨b, rfl⟩ := hu
  constructor <;> rintro ⟨⟨a, rfl⟩, hn, ⟨rfl, rfl⟩ | rfl⟩
  · exact ⟨.simd (.num b) .scalar, rfl, ⟨b, rfl⟩, hn, .inl ⟨rfl, rfl⟩⟩
  · exact ⟨.simd (.num b) (.fixedSize n), rfl, ⟨b, rfl⟩, hn, .inr rfl⟩
  · exact ⟨.mask (.num b) .scalar, rfl, ⟨b, rfl⟩, hn, .inl ⟨rfl, rfl⟩⟩
  · exact ⟨.mask (.num b) (.fixedSize n), rfl, ⟨b, rfl⟩, hn, .inr rfl⟩

/-- It exists only for vectorizable types and simds or masks. -/
theorem rebind_defined (u v : Ty) : (rebindSimd u v).isSome = true ↔
    isVectorizable u = true ∧ (isSimd v = true ∨ isSimdMask v = true) := by
  unfold rebindSimd
  split
  · next h =>
    simp only [Bool.and_eq_true, Bool.or_eq_true] at h
    cases v <;> simp_all [isSimd, isSimdMask]
  · next h =>
    simp only [Bool.and_eq_true, Bool.or_eq_true] at h
    simpa using h

private theorem rebind_some {u v w : Ty} (h : rebindSimd u v = some w) : isVectorizable u = true ∧
    ((∃ t a, v = .simd t a ∧ w = .simd u a ∧ isVectorizable t = true ∧ isAbiTag a = true) ∨
      ∃ t a, v = .mask t a ∧ w = .mask u a ∧ isVectorizable t = true ∧ isAbiTag a = true) := by
  unfold rebindSimd at h
  split at h
  · next hc =>
    simp only [Bool.and_eq_true, Bool.or_eq_true] at hc
    cases v <;> simp_all [isSimd, isSimdMask]
    · exact ⟨_, _, ⟨rfl, rfl⟩, h.symm, hc.2⟩
    · exact ⟨_, _, ⟨rfl, rfl⟩, h.symm, hc.2⟩
  · cases h

/-- Rebinding to the type it has changes nothing. -/
theorem rebind_self (t a : Ty) (hv : isSimd (.simd t a) = true) :
    rebindSimd t (.simd t a) = some (.simd t a) ∧ rebindSimd t (.mask t a) = some (.mask t a) := by
  simp only [isSimd, Bool.and_eq_true] at hv
  simp [rebindSimd, isSimd, isSimdMask, hv]

/-- Only the last of two rebinds counts. -/
theorem rebind_rebind (t u v w : Ty) (h : rebindSimd t v = some w) : rebindSimd u w = rebindSimd u v := by
  obtain ⟨ht, ⟨x, a, rfl, rfl, h1, h2⟩ | ⟨x, a, rfl, rfl, h1, h2⟩⟩ := rebind_some h <;>
    simp [rebindSimd, isSimd, isSimdMask, ht, h1]

example : rebindSimd float32 (.simd int32 (.fixedSize 6)) = some (.simd float32 (.fixedSize 6)) := by decide

/-! ### resize_simd -/

/-- `resize_simd_t<N, V>` has `N` elements of the type `V` has, and is a mask if `V` is; for every positive `int` `N`. -/
theorem resize_spec (t v : Ty) (n m : Nat) (hm : 1 ≤ m) :
    (IsSimdOf v t n → ∃ w, resizeSimd m v = some w ∧ IsSimdOf w t m) ∧
    (IsMaskOf v t n → ∃ w, resizeSimd m v = some w ∧ IsMaskOf w t m) := by
  have hm' : (0 : Int) < m := by omega
  have habi : abiFor m = .scalar ∧ m = 1 ∨ abiFor m = .fixedSize m := by
    unfold abiFor
    split
    · exact .inl ⟨rfl, by omega⟩
    · exact .inr rfl
  constructor <;> rintro ⟨⟨a, rfl⟩, hn, ⟨rfl, rfl⟩ | rfl⟩
  · exact ⟨.simd (.num a) (abiFor m), by simp [resizeSimd, show m ≠ 0 by omega, isSimd, isAbiTag, isVectorizable_num], ⟨a, rfl⟩, hm,
      habi.imp (fun h => ⟨by rw [h.1], h.2⟩) (fun h => by rw [h])⟩
  · exact ⟨.simd (.num a) (abiFor m), by simp [resizeSimd, show m ≠ 0 by omega, isSimd, isAbiTag, isVectorizable_num], ⟨a, rfl⟩, hm,
      habi.imp (fun h => ⟨by rw [h.1], h.2⟩) (fun h => by rw [h])⟩
  · exact ⟨.mask (.num a) (abiFor m), by simp [resizeSimd, show m ≠ 0 by omega, isSimdMask, isAbiTag, isVectorizable_num], ⟨a, rfl⟩, hm,
      habi.imp (fun h => ⟨by rw [h.1], h.2⟩) (fun h => by rw [h])⟩
  · exact ⟨.mask (.num a) (abiFor m), by simp [resizeSimd, show m ≠ 0 by omega, isSimdMask, isAbiTag, isVectorizable_num], ⟨a, rfl⟩, hm,
      habi.imp (fun h => ⟨by rw [h.1], h.2⟩) (fun h => by rw [h])⟩

/-- There is none for `N ≤ 0`, or for other types. -/
theorem resize_defined (n : Int) (v : Ty) : (resizeSimd n v).isSome = true ↔
    0 < n ∧ (isSimd v = true ∨ isSimdMask v = true) := by
  unfold resizeSimd
  split
  · next h =>
    simp only [Bool.and_eq_true, Bool.or_eq_true, decide_eq_true_eq] at h
    cases v <;> simp_all [isSimd, isSimdMask]
  · next h =>
    simp only [Bool.and_eq_true, Bool.or_eq_true, decide_eq_true_eq] at h
    simpa using h

private theorem abiFor_tag (n : Int) : isAbiTag (abiFor n) = true := by
  unfold abiFor; split <;> rfl

private theorem resize_some {n : Int} {v w : Ty} (h : resizeSimd n v = some w) : 0 < n ∧
    ((∃ t a, v = .simd t a ∧ w = .simd t (abiFor n) ∧ isVectorizable t = true ∧ isAbiTag a = true) ∨
      ∃ t a, v = .mask t a ∧ w = .mask t (abiFor n) ∧ isVectorizable t = true ∧ isAbiTag a = true) := by
  unfold resizeSimd at h
  split at h
  · next hc =>
    simp only [Bool.and_eq_true, Bool.or_eq_true, decide_eq_true_eq] at hc
    cases v <;> simp_all [isSimd, isSimdMask]
    · exact ⟨_, _, ⟨rfl, rfl⟩, h.symm, hc.2⟩
    · exact ⟨_, _, ⟨rfl, rfl⟩, h.symm, hc.2⟩
  · cases h

/-- Only the last of two resizes counts. -/
theorem resize_resize (n m : Int) (v w : Ty) (h : resizeSimd n v = some w) : resizeSimd m w = resizeSimd m v := by
  obtain ⟨hn, ⟨x, a, rfl, rfl, h1, h2⟩ | ⟨x, a, rfl, rfl, h1, h2⟩⟩ := resize_some h <;>
    simp [resizeSimd, isSimd, isSimdMask, h1, h2, abiFor_tag]

/-- Resizing to the number of elements it has changes nothing — unless that number is one and the ABI tag `fixed_size<1>`. -/
theorem resize_self_partial (t a : Ty) (n : Nat) (hv : IsSimdOf (.simd t a) t n) (h1 : a ≠ .fixedSize 1) :
    resizeSimd n (.simd t a) = some (.simd t a) ∧ resizeSimd n (.mask t a) = some (.mask t a) := by
  obtain ⟨⟨b, rfl⟩, hn, ⟨h, rfl⟩ | h⟩ := hv <;> cases h
  · exact ⟨rfl, rfl⟩
  · have : (n : Int) ≠ 1 := fun h => h1 (by rw [h])
    simp [resizeSimd, isSimd, isSimdMask, isVectorizable_num, isAbiTag, abiFor, this, show n ≠ 0 by omega]

/-- `resize_simd_t<1, fixed_size_simd<T, 1>>` is another type. -/
theorem resize_self_false : IsSimdOf (.simd int32 (.fixedSize 1)) int32 1 ∧
    resizeSimd 1 (.simd int32 (.fixedSize 1)) = some (.simd int32 .scalar) ∧
    Ty.simd int32 .scalar ≠ .simd int32 (.fixedSize 1) :=
  ⟨⟨⟨_, rfl⟩, by decide, .inr rfl⟩, by decide, by decide⟩

/-- The resized simd is the one that `deduce_t` names. -/
theorem resize_deduce (t a : Ty) (n : Nat) (h0 : 1 ≤ n) (h : n < 2 ^ 31) (hv : isSimd (.simd t a) = true) :
    resizeSimd n (.simd t a) = some (.simd t (deduce n)) := by
  have : toInt n = n := toInt_of_lt h
  have h0' : (0 : Int) < n := by omega
  simp only [resizeSimd, hv, h0', decide_true, Bool.true_or, Bool.and_true, if_true, deduce, abiFor, this]
  by_cases h1 : n = 1
  · subst h1; rfl
  · have : (n : Int) ≠ 1 := by omega
    simp [h1, this]

/-- Rebinding and resizing can be done in either order. -/
theorem rebind_resize (u v w w' : Ty) (n : Int) (h : rebindSimd u v = some w) (h' : resizeSimd n v = some w') :
    resizeSimd n w = rebindSimd u w' := by
  obtain ⟨hu, ⟨x, a, rfl, rfl, h1, h2⟩ | ⟨x, a, rfl, rfl, h1, h2⟩⟩ := rebind_some h <;>
  obtain ⟨hn, ⟨y, b, he, rfl, h3, h4⟩ | ⟨y, b, he, rfl, h3, h4⟩⟩ := resize_some h' <;> cases he <;>
    simp [resizeSimd, rebindSimd, isSimd, isSimdMask, hu, h1, h2, hn, abiFor_tag]

example : rebindSimd float32 (.mask int32 .scalar) = some (.mask float32 .scalar) ∧
    resizeSimd 3 (.mask int32 .scalar) = some (.mask int32 (.fixedSize 3)) ∧
    resizeSimd 3 (.mask float32 .scalar) = some (.mask float32 (.fixedSize 3)) := by decide

/-! ### Member types and alignment -/

/-- `mask_type` and `simd_type` are inverse to each other, and have the same number of elements and the same ABI. -/
theorem maskType_spec (v t : Ty) (n : Nat) :
    (IsSimdOf v t n → ∃ m, maskType v = some m ∧ IsMaskOf m t n ∧ simdType m = some v ∧ abiType m = abiType v ∧
      valueType v = some t) ∧
    (IsMaskOf v t n → ∃ s, simdType v = some s ∧ IsSimdOf s t n ∧ maskType s = some v ∧ abiType s = abiType v ∧
      valueType v = some .bool) := by
  constructor <;> rintro ⟨⟨a, rfl⟩, hn, ⟨rfl, rfl⟩ | rfl⟩
  · exact ⟨.mask (.num a) .scalar, rfl, ⟨⟨a, rfl⟩, hn, .inl ⟨rfl, rfl⟩⟩, rfl, rfl, rfl⟩
  · exact ⟨.mask (.num a) (.fixedSize n), by simp [maskType, valueType], ⟨⟨a, rfl⟩, hn, .inr rfl⟩,
      by simp [simdType, valueType, isVectorizable_num], by simp [abiType, valueType, isVectorizable_num], by simp [valueType]⟩
  · exact ⟨.simd (.num a) .scalar, rfl, ⟨⟨a, rfl⟩, hn, .inl ⟨rfl, rfl⟩⟩, rfl, rfl, rfl⟩
  · exact ⟨.simd (.num a) (.fixedSize n), by simp [simdType, valueType, isVectorizable_num], ⟨⟨a, rfl⟩, hn, .inr rfl⟩,
      by simp [maskType, valueType], by simp [abiType, valueType, isVectorizable_num], by simp [valueType, isVectorizable_num]⟩

/-- `simd_mask<T, Abi>` has the member types `value_type`, `abi_type` and `simd_type` exactly if `T` is an element type and `Abi` a tag of the library
(for `T` without cv-qualification). -/
theorem maskMembers_iff (t a : Ty) (ht : ∀ u, t ≠ .const u) :
    ((∃ b, valueType (.mask t a) = some b) ↔ ElementTy t ∧ (a = .scalar ∨ ∃ n : Nat, a = .fixedSize n)) ∧
    ((∃ b, abiType (.mask t a) = some b) ↔ ElementTy t ∧ (a = .scalar ∨ ∃ n : Nat, a = .fixedSize n)) ∧
    ((∃ b, simdType (.mask t a) = some b) ↔ ElementTy t ∧ (a = .scalar ∨ ∃ n : Nat, a = .fixedSize n)) := by
  have hn (n : Int) : 0 ≤ n ↔ ∃ m : Nat, n = m := ⟨fun h => ⟨n.toNat, by omega⟩, fun ⟨m, h⟩ => by omega⟩
  cases a <;> simp [valueType, abiType, simdType, vec_plain ht, hn]

example : valueType (.mask .bool .scalar) = none ∧ valueType (.mask float32 .scalar) = some .bool := by decide

/-- `memory_alignment_v<V, U>` is the alignment of `U`: loads and stores with `vector_aligned` require no more than those with
`element_aligned`. -/
theorem memoryAlignment_spec (v t : Ty) (n : Nat) (u : Num) :
    (IsSimdOf v t n → memoryAlignment v (.num u) = some u.align) ∧
    (IsMaskOf v t n → memoryAlignment v .bool = some 1) := by
  constructor <;> rintro ⟨⟨a, rfl⟩, hn, ⟨rfl, rfl⟩ | rfl⟩ <;> rfl

/-- There is no `memory_alignment_v<V, U>` for other types: `V` is a simd and `U` an element type, or `V` a mask and `U` is `bool`. -/
theorem memoryAlignment_defined (v u : Ty) (hu : ∀ w, u ≠ .const w) :
    (memoryAlignment v u).isSome = true ↔ ((∃ t a, v = .simd t a) ∧ ElementTy u) ∨ ((∃ t a, v = .mask t a) ∧ u = .bool) := by
  cases v with
  | simd t a =>
    have h := vec_plain hu
    simp only [memoryAlignment]
    split
    · next hv =>
      obtain ⟨n, rfl⟩ := h.1 hv
      exact ⟨fun _ => .inl ⟨⟨_, _, rfl⟩, n, rfl⟩, fun _ => rfl⟩
    · next hv =>
      refine ⟨fun h => by simp at h, ?_⟩
      rintro (⟨-, hb⟩ | ⟨⟨_, _, hb⟩, -⟩)
      · exact absurd (h.2 hb) hv
      · cases hb
  | mask t a =>
    constructor
    · intro h
      cases u <;> first | (simp [memoryAlignment] at h; done) | exact .inr ⟨⟨_, _, rfl⟩, rfl⟩
    · rintro (⟨⟨_, _, hb⟩, -⟩ | ⟨-, rfl⟩)
      · cases hb
      · rfl
  | _ =>
    refine ⟨fun h => by simp [memoryAlignment] at h, ?_⟩
    rintro (⟨⟨_, _, hb⟩, -⟩ | ⟨⟨_, _, hb⟩, -⟩) <;> cases hb

example : memoryAlignment (.simd int32 .scalar) .bool = none ∧ memoryAlignment (.simd int32 .scalar) float32 = some 4 := by decide

/-- The memory a simd can be loaded from and stored to has elements of any type of the TS; that of a mask has `bool`s. -/
theorem isLoadStore_spec (p t : Ty) (hp : ∀ u, p ≠ .const u) (ht : ∀ u, t ≠ .const u) :
    isLoadStore p t = true ↔ (ElementTy p ∧ ElementTy t) ∨ (p = .bool ∧ t = .bool) := by
  unfold isLoadStore
  split
  · next h => simp [h]
  · next h => rw [Bool.and_eq_true, vec_plain hp, vec_plain ht]; exact ⟨.inl, fun h' => h'.resolve_right h⟩

example : isLoadStore int32 float32 = true ∧ isLoadStore .bool .bool = true ∧ isLoadStore .bool int32 = false := by decide

/-! ### Concepts -/

private theorem cVec_eq (t : Ty) : cVectorizable t = isVectorizable t := by
  cases t <;> simp [cVectorizable, isVectorizable]

/-- The concepts hold exactly of the simds and masks of the TS, if there are no cv-qualified element types and no sizes below one. -/
theorem concepts_partial (v : Ty) (hv : Plain v) :
    (anySimd v = true ↔ AnySimd v) ∧ (anySimdMask v = true ↔ AnyMask v) ∧
      (anySimdOrMask v = true ↔ AnySimd v ∨ AnyMask v) := by
  have h1 : anySimd v = true ↔ AnySimd v := by
    constructor
    · intro h
      simp only [anySimd, Bool.and_eq_true] at h
      exact (isSimd_partial v hv).1 h.1.1
    · rintro ⟨t, n, ⟨a, rfl⟩, hn, ⟨rfl, rfl⟩ | rfl⟩
      · rfl
      · simp [anySimd, isSimd, valueType, abiType, isAbiTag, isVectorizable_num, cVec_eq]
  have h2 : anySimdMask v = true ↔ AnyMask v := by
    constructor
    · intro h
      simp only [anySimdMask, Bool.and_eq_true] at h
      exact (isSimdMask_partial v hv).1 h.1.1
    · rintro ⟨t, n, ⟨a, rfl⟩, hn, ⟨rfl, rfl⟩ | rfl⟩
      · rfl
      · simp [anySimdMask, anySimd, isSimd, isSimdMask, simdType, valueType, abiType, isAbiTag, isVectorizable_num, cVec_eq]
  exact ⟨h1, h2, by rw [anySimdOrMask, Bool.or_eq_true, h1, h2]⟩

/-- `typed_simd`, `sized_simd` and `sized_simd_mask` fix the element type and the number of elements. -/
theorem sized_concepts_partial (v t : Ty) (w : Nat) (hv : Plain v) :
    (typedSimd v t = true ↔ ∃ n, IsSimdOf v t n) ∧ (sizedSimd v w = true ↔ ∃ u, IsSimdOf v u w) ∧
      (sizedSimdMask v w = true ↔ ∃ u, IsMaskOf v u w) := by
  obtain ⟨h1, h2, -⟩ := concepts_partial v hv
  refine ⟨?_, ?_, ?_⟩
  · rw [typedSimd, Bool.and_eq_true, h1, beq_iff_eq]
    constructor
    · rintro ⟨⟨u, n, hu⟩, ht⟩
      obtain ⟨m, -, -, -, -, h⟩ := (maskType_spec v u n).1 hu
      rw [h] at ht; cases ht; exact ⟨n, hu⟩
    · rintro ⟨n, hu⟩
      obtain ⟨m, -, -, -, -, h⟩ := (maskType_spec v t n).1 hu
      exact ⟨⟨t, n, hu⟩, h⟩
  · rw [sizedSimd, Bool.and_eq_true, h1, beq_iff_eq]
    constructor
    · rintro ⟨⟨u, n, hu⟩, hs⟩
      have := hu
      obtain ⟨⟨a, rfl⟩, hn, ⟨rfl, rfl⟩ | rfl⟩ := hu <;> simp [sizeMember, valueType] at hs <;> subst hs <;> exact ⟨_, this⟩
    · rintro ⟨u, hu⟩
      refine ⟨⟨u, w, hu⟩, ?_⟩
      obtain ⟨⟨a, rfl⟩, hn, ⟨rfl, rfl⟩ | rfl⟩ := hu <;> simp [sizeMember, valueType]
  · rw [sizedSimdMask, Bool.and_eq_true, h2, beq_iff_eq]
    constructor
    · rintro ⟨⟨u, n, hu⟩, hs⟩
      have := hu
      obtain ⟨⟨a, rfl⟩, hn, ⟨rfl, rfl⟩ | rfl⟩ := hu <;>
        simp [sizeMember, valueType, isVectorizable_num] at hs <;> subst hs <;> exact ⟨_, this⟩
    · rintro ⟨u, hu⟩
      refine ⟨⟨u, w, hu⟩, ?_⟩
      obtain ⟨⟨a, rfl⟩, hn, ⟨rfl, rfl⟩ | rfl⟩ := hu <;> simp [sizeMember, valueType, isVectorizable_num]

example : sizedSimd (.simd float32 (.fixedSize 3)) 3 = true ∧ typedSimd (.simd float32 (.fixedSize 3)) float32 = true ∧
    sizedSimdMask (.mask float32 .scalar) 1 = true ∧ sizedSimd (.simd float32 (.fixedSize 3)) 4 = false := by decide

/-- The concept accepts a simd of constants. -/
theorem anySimd_not_exact : ∃ v, anySimd v = true ∧ ¬ AnySimd v :=
  ⟨.simd (.const int32) (.fixedSize 4), rfl, by rintro ⟨t', n, ⟨a, rfl⟩, -, ⟨h, -⟩ | h⟩ <;> cases h⟩

/-! ## The theorems applied to concrete data -/

private theorem plain4 : Plain (.simd int32 (.fixedSize 4)) := ⟨fun u h => by simp [int32] at h, fun n h => by cases h; decide⟩
private theorem simd4 : IsSimdOf (.simd int32 (.fixedSize 4)) int32 4 := ⟨⟨_, rfl⟩, by decide, .inr rfl⟩

example := isSimd_partial _ plain4
example := simdSize_defined int32 (.fixedSize 5) 5 (by decide)
example := deduce_partial int32 ⟨_, rfl⟩ 7 (by decide) (by decide)
example := rebind_spec float32 int32 (.simd int32 (.fixedSize 4)) 4 ⟨_, rfl⟩
example := rebind_self int32 (.fixedSize 4) (by decide)
example := rebind_rebind float32 int32 (.simd int32 (.fixedSize 4)) _ rfl
example := resize_spec int32 (.simd int32 (.fixedSize 4)) 4 7 (by decide)
example := resize_self_partial int32 (.fixedSize 4) 4 simd4 (by decide)
example := resize_deduce int32 (.fixedSize 4) 7 (by decide) (by decide) (by decide)
example := rebind_resize float32 (.simd int32 (.fixedSize 4)) _ _ 7 rfl rfl
example := isLoadStore_spec int32 float32 (by simp [int32]) (by simp [float32])
example := concepts_partial _ plain4
example := sized_concepts_partial _ float32 4 plain4

end Vir.Traits
