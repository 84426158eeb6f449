import Verif.Model.Casts
import Verif.Props.Traits
import Verif.Props.SimdOps
import Verif.Props.ValuePreserving

/-!
# C76: integer types by size and rank. C77: casts between simd types
-/

namespace Vir.Casts

open Vir.Traits Vir.Spec

/-! ### C76 -/

/-- **C76.** `as_int_t<T>` is a signed integer type with the size of `T`. -/
theorem asInt_spec (dm : DataModel) (s : Nat) (u : IntName) (h : asInt dm s = some u) :
    dm.size u = s ∧ dm.signed u = true := by
  simp only [asInt, asIntFrom] at h
  repeat' split at h
  all_goals first | cases h | skip
  all_goals simp_all [DataModel.signed]

/-- **C76.** `as_unsigned_t<T>` is an unsigned integer type with the size of `T`. -/
theorem asUnsigned_spec (dm : DataModel) (s : Nat) (u : IntName) (h : asUnsigned dm s = some u) :
    dm.size u = s ∧ dm.signed u = false := by
  simp only [asUnsigned, asUnsignedFrom] at h
  repeat' split at h
  all_goals first | cases h | skip
  all_goals simp_all [DataModel.signed]

/-- **C76.** There is one exactly for the sizes 1, 2, 4, 8 and, if there is `__int128`, 16. -/
theorem asInt_exists (dm : DataModel) (s : Nat) :
    ((asInt dm s).isSome = true ↔ s = 1 ∨ s = 2 ∨ s = 4 ∨ s = 8 ∨ s = 16 ∧ dm.has128 = true) ∧
    ((asUnsigned dm s).isSome = true ↔ s = 1 ∨ s = 2 ∨ s = 4 ∨ s = 8 ∨ s = 16 ∧ dm.has128 = true) := by
  obtain ⟨a, b, c⟩ := dm
  constructor <;> simp only [asInt, asIntFrom, asUnsigned, asUnsignedFrom, DataModel.size] <;>
    cases a <;> cases c <;> simp only [if_true, Bool.false_eq_true, if_false] <;> (repeat' split) <;>
    by_cases h16 : s = 16 <;> simp_all

/-- **C76.** The two correspond to each other, and asking twice does not change the answer. -/
theorem asInt_asUnsigned (dm : DataModel) (s : Nat) :
    (asInt dm s).map toUnsigned = asUnsigned dm s ∧
    (∀ u, asInt dm s = some u → asInt dm (dm.size u) = some u ∧ asUnsigned dm (dm.size u) = asUnsigned dm s) := by
  refine ⟨?_, fun u h => ?_⟩
  · obtain ⟨a, b, c⟩ := dm
    cases a <;> cases c <;> simp only [asInt, asIntFrom, asUnsigned, asUnsignedFrom, DataModel.size, if_true, Bool.false_eq_true,
      if_false] <;> by_cases h8 : s = 8 <;> by_cases h4 : s = 4 <;> by_cases h2 : s = 2 <;> by_cases h1 : s = 1 <;>
      by_cases h16 : s = 16 <;> simp [h8, h4, h2, h1, h16, toUnsigned]
  · rw [(asInt_spec dm s u h).1]; exact ⟨h, rfl⟩

/-- **C76, limit of the claim.** `as_int_t<long>` is `long long` where `long` has 8 bytes, not `long`. -/
theorem asInt_long : asInt ⟨true, true, true⟩ (DataModel.size ⟨true, true, true⟩ .long) = some .llong := by decide

example : asInt ⟨false, true, true⟩ 4 = some .long ∧ asInt ⟨true, true, true⟩ 4 = some .int ∧
    asUnsigned ⟨true, true, false⟩ 16 = none ∧ asUnsigned ⟨true, true, false⟩ 2 = some .ushort := by decide

private def names : List IntName := [.char, .schar, .uchar, .short, .ushort, .int, .uint, .long, .ulong, .llong, .ullong]

private theorem mem_names {t : IntName} (h1 : t ≠ .int128) (h2 : t ≠ .uint128) : t ∈ names := by
  cases t <;> first | exact absurd rfl h1 | exact absurd rfl h2 | simp [names]

private theorem rank_table : ∀ a ∈ [true, false], ∀ b ∈ [true, false], ∀ t ∈ names, ∀ u ∈ names,
    (intTy ⟨a, b, true⟩ t).lowest ≤ (intTy ⟨a, b, true⟩ u).lowest →
    (intTy ⟨a, b, true⟩ u).max ≤ (intTy ⟨a, b, true⟩ t).max →
    (higherRank ⟨a, b, true⟩ t u = true ↔ rank u ≤ rank t ∧ (rank t = 1 → t = u)) := by decide +kernel

private theorem has_range {s t : IntTy} (h : ∀ v : Int, s.Has v → t.Has v) (hs : s.lowest ≤ s.max) :
    t.lowest ≤ s.lowest ∧ s.max ≤ t.max :=
  ⟨(h _ ⟨Int.le_refl _, hs⟩).1, (h _ ⟨hs, Int.le_refl _⟩).2⟩

private theorem nonempty_table : ∀ a ∈ [true, false], ∀ b ∈ [true, false], ∀ t ∈ names,
    (intTy ⟨a, b, true⟩ t).lowest ≤ (intTy ⟨a, b, true⟩ t).max ∧
    intTy ⟨a, b, true⟩ t ∈ [IntTy.i8, .u8, .i16, .u16, .i32, .u32, .i64, .u64] := by decide +kernel

/-- The ranks of [conv.rank]. -/
def docRank : IntName → Nat
  | .int128 | .uint128 => 5
  | .llong | .ullong => 4
  | .long | .ulong => 3
  | .int | .uint => 2
  | .short | .ushort => 1
  | .char | .schar | .uchar => 0

/-- The signed type of a rank of at least that of `int`. -/
def signedOfRank : Nat → IntName
  | 3 => .long
  | 4 => .llong
  | 5 => .int128
  | _ => .int

/-- `rank` orders the types as [conv.rank] does. -/
theorem rank_spec (t u : IntName) : rank t ≤ rank u ↔ docRank t ≤ docRank u := by
  cases t <;> cases u <;> decide

private theorem allNames (t : IntName) : t ∈ [IntName.char, .schar, .uchar, .short, .ushort, .int, .uint, .long, .ulong, .llong, .ullong,
    .int128, .uint128] := by cases t <;> simp

private theorem sum_table : ∀ a ∈ [true, false], ∀ b ∈ [true, false],
    ∀ t ∈ [IntName.char, .schar, .uchar, .short, .ushort, .int, .uint, .long, .ulong, .llong, .ullong, .int128, .uint128],
    ∀ u ∈ [IntName.char, .schar, .uchar, .short, .ushort, .int, .uint, .long, .ulong, .llong, .ullong, .int128, .uint128],
    docRank (sumType ⟨a, b, true⟩ t u) = max 2 (max (docRank t) (docRank u)) ∧
    (DataModel.signed ⟨a, b, true⟩ (sumType ⟨a, b, true⟩ t u) = true ↔
      ((intTy ⟨a, b, true⟩ (signedOfRank (max 2 (max (docRank t) (docRank u))))).lowest ≤ (intTy ⟨a, b, true⟩ t).lowest ∧
       (intTy ⟨a, b, true⟩ t).max ≤ (intTy ⟨a, b, true⟩ (signedOfRank (max 2 (max (docRank t) (docRank u))))).max) ∧
      ((intTy ⟨a, b, true⟩ (signedOfRank (max 2 (max (docRank t) (docRank u))))).lowest ≤ (intTy ⟨a, b, true⟩ u).lowest ∧
       (intTy ⟨a, b, true⟩ u).max ≤ (intTy ⟨a, b, true⟩ (signedOfRank (max 2 (max (docRank t) (docRank u))))).max)) := by
  decide +kernel

private theorem range_table : ∀ a ∈ [true, false], ∀ b ∈ [true, false],
    ∀ t ∈ [IntName.char, .schar, .uchar, .short, .ushort, .int, .uint, .long, .ulong, .llong, .ullong, .int128, .uint128],
    (intTy ⟨a, b, true⟩ t).lowest ≤ (intTy ⟨a, b, true⟩ t).max := by decide +kernel

/-- **C76 (usual arithmetic conversions).** `T() + U()` has the larger of the two ranks (at least that of `int`), and is signed exactly if
the signed type of that rank has all values of `T` and `U`. -/
theorem sumType_spec (dm : DataModel) (t u : IntName) :
    let r := max 2 (max (docRank t) (docRank u))
    docRank (sumType dm t u) = r ∧
    (dm.signed (sumType dm t u) = true ↔
      ∀ v : Int, (intTy dm t).Has v ∨ (intTy dm u).Has v → (intTy dm (signedOfRank r)).Has v) := by
  intro r
  obtain ⟨a, b, c⟩ := dm
  have e1 : ∀ x, intTy ⟨a, b, c⟩ x = intTy ⟨a, b, true⟩ x := fun x => by cases x <;> rfl
  have e2 : sumType ⟨a, b, c⟩ t u = sumType ⟨a, b, true⟩ t u := by cases c <;> rfl
  have e3 : ∀ x, DataModel.signed ⟨a, b, c⟩ x = DataModel.signed ⟨a, b, true⟩ x := fun x => by cases x <;> rfl
  have ha : a ∈ [true, false] := by cases a <;> simp
  have hb : b ∈ [true, false] := by cases b <;> simp
  have h := sum_table a ha b hb t (allNames t) u (allNames u)
  simp only [e1, e2, e3]
  refine ⟨h.1, h.2.trans ?_⟩
  have ht := range_table a ha b hb t (allNames t)
  have hu := range_table a ha b hb u (allNames u)
  constructor
  · rintro ⟨h1, h2⟩ v (hv | hv)
    · exact ⟨Int.le_trans h1.1 hv.1, Int.le_trans hv.2 h1.2⟩
    · exact ⟨Int.le_trans h2.1 hv.1, Int.le_trans hv.2 h2.2⟩
  · intro h
    exact ⟨has_range (fun v hv => h v (.inl hv)) ht, has_range (fun v hv => h v (.inr hv)) hu⟩

/-- `int` and `unsigned` are the types that the broadcast constructor treats specially, and no other name denotes them. -/
theorem arith_names (dm : DataModel) (t : IntName) :
    (arith dm t = .cint ↔ t = .int) ∧ (arith dm t = .cuint ↔ t = .uint) := by
  obtain ⟨a, b, c⟩ := dm
  cases t <;> cases a <;> cases b <;> simp [arith, Convert.ArithTy.cint, Convert.ArithTy.cuint, intTy, DataModel.size, DataModel.signed,
    IntTy.i32, IntTy.u32]

/-- **C76.** A `fixed_size` simd of integers converts implicitly to another exactly if the target type has all values of the source
type and at least its conversion rank — except between `char`, `signed char` and `unsigned char`, which have the same rank. -/
theorem convertible_iff_partial (dm : DataModel) (rnd : Convert.FloatTy → ℚ → ℚ) (hr : IsRounding rnd) (u t : IntName)
    (hu : u ≠ .int128 ∧ u ≠ .uint128) (ht : t ≠ .int128 ∧ t ≠ .uint128) :
    convertible dm rnd u t = true ↔
      (∀ v : Int, (intTy dm u).Has v → (intTy dm t).Has v) ∧ docRank u ≤ docRank t ∧ (docRank t = 0 → t = u) := by
  have r0 : ∀ t, docRank t = 0 ↔ rank t = 1 := by intro t; cases t <;> decide
  rw [← rank_spec, r0]
  obtain ⟨a, b, c⟩ := dm
  have e1 : ∀ x, intTy ⟨a, b, c⟩ x = intTy ⟨a, b, true⟩ x := fun x => by cases x <;> rfl
  have e2 : higherRank ⟨a, b, c⟩ t u = higherRank ⟨a, b, true⟩ t u := by cases c <;> rfl
  have ha : a ∈ [true, false] := by cases a <;> simp
  have hb : b ∈ [true, false] := by cases b <;> simp
  have mu := mem_names hu.1 hu.2
  have mt := mem_names ht.1 ht.2
  have nu := nonempty_table a ha b hb u mu
  have nt := nonempty_table a ha b hb t mt
  rw [convertible, Bool.and_eq_true, Convert.valuePreserving_iff rnd hr, e2]
  · simp only [arith, IsValue, e1]
    have key : (∀ q : ℚ, (∃ v : ℤ, (intTy ⟨a, b, true⟩ u).Has v ∧ q = v) → ∃ v : ℤ, (intTy ⟨a, b, true⟩ t).Has v ∧ q = v) ↔
        ∀ v : ℤ, (intTy ⟨a, b, true⟩ u).Has v → (intTy ⟨a, b, true⟩ t).Has v := by
      constructor
      · intro h v hv
        obtain ⟨w, hw, e⟩ := h v ⟨v, hv, rfl⟩
        have : v = w := by exact_mod_cast e
        rw [this]; exact hw
      · rintro h q ⟨v, hv, rfl⟩
        exact ⟨v, h v hv, rfl⟩
    rw [key]
    constructor
    · rintro ⟨h, h'⟩
      have := has_range h nu.1
      exact ⟨h, (rank_table a ha b hb t mt u mu this.1 this.2).1 h'⟩
    · rintro ⟨h, h'⟩
      have := has_range h nu.1
      exact ⟨h, (rank_table a ha b hb t mt u mu this.1 this.2).2 h'⟩
  · simpa only [arith, StandardTy, e1] using nu.2
  · simpa only [arith, StandardTy, e1] using nt.2
  · simp [arith]

/-- **C76, limit of the claim.** `simd<signed char>` does not convert to `simd<char>` although `char` has the same values and rank. -/
theorem convertible_char (rnd : Convert.FloatTy → ℚ → ℚ) :
    convertible ⟨true, true, true⟩ rnd .schar .char = false ∧ docRank .schar = docRank .char ∧
      ∀ v, (intTy ⟨true, true, true⟩ .schar).Has v ↔ (intTy ⟨true, true, true⟩ .char).Has v := by
  refine ⟨?_, rfl, fun v => Iff.rfl⟩
  simp [convertible, show higherRank ⟨true, true, true⟩ .char .schar = false by decide]

/-- `long` and `long long`: one direction only. -/
example : higherRank ⟨true, true, true⟩ .llong .long = true ∧ higherRank ⟨true, true, true⟩ .long .llong = false ∧
    higherRank ⟨false, true, true⟩ .long .int = true ∧ higherRank ⟨true, true, true⟩ .int .uchar = true := by decide

/-! ### C77 -/

/-- **C77.** The type of `static_simd_cast` of a simd: with an element type, the simd with these elements, as many as before; with a
simd type, this type. -/
theorem staticCastType_simd (v u : Ty) (n : Nat) (hv : IsSimdOf v u n) (t : Ty) :
    (ElementTy t → ∃ w, staticCastType t v = some w ∧ IsSimdOf w t n) ∧
    (∀ w m, IsSimdOf w t m → staticCastType w v = some w) ∧
    (∀ w m, IsMaskOf w t m → staticCastType w v = none) := by
  obtain ⟨⟨a, rfl⟩, hn, ⟨rfl, rfl⟩ | rfl⟩ := hv
  · refine ⟨?_, ?_, ?_⟩
    · rintro ⟨b, rfl⟩; exact ⟨_, rfl, ⟨b, rfl⟩, hn, .inl ⟨rfl, rfl⟩⟩
    · rintro w m ⟨⟨b, rfl⟩, -, ⟨rfl, rfl⟩ | rfl⟩ <;> rfl
    · rintro w m ⟨⟨b, rfl⟩, -, ⟨rfl, rfl⟩ | rfl⟩ <;> rfl
  · refine ⟨?_, ?_, ?_⟩
    · rintro ⟨b, rfl⟩; exact ⟨_, rfl, ⟨b, rfl⟩, hn, .inr rfl⟩
    · rintro w m ⟨⟨b, rfl⟩, -, ⟨rfl, rfl⟩ | rfl⟩ <;> rfl
    · rintro w m ⟨⟨b, rfl⟩, -, ⟨rfl, rfl⟩ | rfl⟩ <;> rfl

/-- **C77.** `static_simd_cast` to a simd of `m` lanes is defined exactly if the argument has at least as many; then lane `i` is lane
`i` of the argument, converted, and the other lanes of the argument are dropped. Else the check of the subscript fails. -/
theorem staticSimdCast_size {α β : Type} (m : Nat) (conv : α → β) (x : List α) :
    (m ≤ x.length → Simd.staticSimdCast m conv x = .ok ((x.take m).map conv)) ∧
    (x.length < m → Simd.staticSimdCast m conv x = .trap) := by
  constructor
  · intro h
    have hl : ((x.take m).map conv).length = m := by simp; omega
    refine Simd.gen_list hl fun j y hy => ?_
    obtain ⟨hj, hy⟩ := List.getElem?_eq_some_iff.1 hy
    simp only [List.length_map, List.length_take] at hj
    simp only [List.getElem_map, List.getElem_take] at hy
    simp [Simd.at', List.getElem?_eq_getElem (show j < x.length by omega), hy]
  · intro h
    have aux : ∀ c i, x.length ≤ i + c → 0 < c → i ≤ x.length →
        Simd.genFrom (fun i => (do .ok (conv (← Simd.at' x i)) : Outcome β)) c i = .trap ∨ x.length = i + c := by
      intro c
      induction c with
      | zero => intro i _ h2 _; omega
      | succ c ih =>
        intro i h1 _ h3
        by_cases hi : i = x.length
        · left
          subst hi
          simp [Simd.genFrom, Simd.at']
        · by_cases hc : c = 0
          · subst hc; right; omega
          · rcases ih (i + 1) (by omega) (by omega) (by omega) with h' | h'
            · left
              have hlt : i < x.length := by omega
              simp only [Simd.genFrom, Simd.at', List.getElem?_eq_getElem hlt, Outcome.bind_ok]
              simp only [Simd.at'] at h'
              rw [h']; rfl
            · right; omega
    rcases aux m 0 (by omega) (by omega) (by omega) with h' | h'
    · exact h'
    · omega

example : Simd.staticSimdCast 2 IntTy.u8.conv [256, 7, 9] = .ok [0, 7] ∧
    Simd.staticSimdCast 3 IntTy.u8.conv [1, 2] = .trap := by decide

/-- **C77.** The type of `static_simd_cast` of a mask: with an element type, the mask for these elements, as many as before; with a mask
type, this type if it has as many elements; otherwise there is none. -/
theorem staticCastType_mask (v u : Ty) (n : Nat) (hv : IsMaskOf v u n) (t : Ty) :
    (ElementTy t → ∃ w, staticCastType t v = some w ∧ IsMaskOf w t n) ∧
    (∀ w, IsMaskOf w t n → staticCastType w v = some w) ∧
    (∀ w m, m ≠ n → IsMaskOf w t m → staticCastType w v = none) := by
  have hs : ∃ a, v = .mask u a ∧ simdSize u a = some n := by
    obtain ⟨⟨a, rfl⟩, hn, ⟨rfl, rfl⟩ | rfl⟩ := hv
    · exact ⟨_, rfl, rfl⟩
    · exact ⟨_, rfl, by simp [simdSize, isVectorizable_num]⟩
  obtain ⟨a, rfl, hs⟩ := hs
  refine ⟨?_, ?_, ?_⟩
  · rintro ⟨b, rfl⟩
    refine ⟨_, rfl, ⟨b, rfl⟩, ?_⟩
    obtain ⟨-, hn, ⟨h, rfl⟩ | h⟩ := hv <;> cases h
    · exact ⟨hn, .inl ⟨rfl, rfl⟩⟩
    · exact ⟨hn, .inr rfl⟩
  · rintro w ⟨⟨b, rfl⟩, hn, ⟨rfl, rfl⟩ | rfl⟩
    · simp [staticCastType, isVectorizable, isArithmetic, sizeMember, valueType, hs]
    · simp [staticCastType, isVectorizable, isArithmetic, sizeMember, valueType, hs]
  · rintro w m hm ⟨⟨b, rfl⟩, hn, ⟨rfl, rfl⟩ | rfl⟩
    · simp [staticCastType, isVectorizable, isArithmetic, sizeMember, valueType, hs, hm]
    · simp [staticCastType, isVectorizable, isArithmetic, sizeMember, valueType, hs, hm]

/-- **C77.** The cast of a mask keeps all lanes, and so does the implicit conversion. -/
theorem maskCast_spec (x : List Bool) : maskCast x.length x = .ok x ∧ convertLanes x.length id x = .ok x := by
  constructor
  · refine Simd.gen_list rfl fun j y hy => ?_
    simp [Simd.at', hy]
  · refine Simd.gen_list rfl fun j y hy => ?_
    simp [Simd.at', hy]

/-- **C77, limit of the claim.** A mask can be cast to a simd of the same size, which then holds zeros and ones. -/
theorem maskToSimd_exists (t u : Num) (x : List Bool) :
    staticCastType (.simd (.num t) (.fixedSize x.length)) (.mask (.num u) (.fixedSize x.length)) =
      some (.simd (.num t) (.fixedSize x.length)) ∧
    maskToSimd x.length (fun b => if b then (1 : Int) else 0) x = .ok (x.map fun b => if b then 1 else 0) := by
  constructor
  · simp [staticCastType, isVectorizable, isArithmetic, sizeMember, valueType, simdSize]
  · refine Simd.gen_list (by simp) fun j y hy => ?_
    rw [List.getElem?_map] at hy
    cases hxj : x[j]? with
    | none => simp [hxj] at hy
    | some a => simp [hxj] at hy; simp [Simd.at', hxj, hy]

/-- **C77.** `simd_cast` exists exactly for the value-preserving conversions among those `static_simd_cast` has, and is the same. -/
theorem simdCastType_spec (vp : Ty → Ty → Bool) (v u : Ty) (n : Nat) (hv : IsSimdOf v u n) (t : Ty) :
    (ElementTy t → simdCastType vp t v = if vp u t then staticCastType t v else none) ∧
    (∀ w m, IsSimdOf w t m → simdCastType vp w v = if vp u t then staticCastType w v else none) ∧
    (∀ w x, IsMaskOf w x n → simdCastType vp t w = none) := by
  obtain ⟨⟨a, rfl⟩, hn, ⟨rfl, rfl⟩ | rfl⟩ := hv
  all_goals
    refine ⟨?_, ?_, ?_⟩
    · rintro ⟨b, rfl⟩; rfl
    · rintro w m ⟨⟨b, rfl⟩, -, ⟨rfl, rfl⟩ | rfl⟩ <;> simp [simdCastType, valueType] <;> rfl
    · rintro w x ⟨⟨b, rfl⟩, -, ⟨rfl, h⟩ | rfl⟩ <;> rfl

/-- **C77.** `cvt` of a simd converts to every simd type. Implicitly, it converts to simds with the same number of lanes only, lane by
lane; otherwise with `static_simd_cast`. -/
theorem cvt_simd (conv : Ty → Ty → Bool) (v u w t : Ty) (n m : Nat) (hv : IsSimdOf v u n) (hw : IsSimdOf w t m) :
    (cvtWay conv v w = some true ∨ cvtWay conv v w = some false) ∧
    (cvtWay conv v w = some true → m = n ∧ (v = w ∨ conv u t = true)) ∧
    ∀ {α β : Type} (f : α → β) (x : List α), x.length = n →
      (cvtWay conv v w = some true → convertLanes m f x = .ok (x.map f)) := by
  have hc := (staticCastType_simd v u n hv t).2.1 w m hw
  have hl : cvtWay conv v w = some true → m = n ∧ (v = w ∨ conv u t = true) := by
    intro h
    have hi : implicit conv v w = true := by
      unfold cvtWay at h
      by_cases hi : implicit conv v w = true
      · exact hi
      · simp [hi, hc] at h
    unfold implicit at hi
    by_cases e : v = w
    · subst e
      refine ⟨?_, .inl rfl⟩
      obtain ⟨-, -, ⟨rfl, rfl⟩ | rfl⟩ := hv <;> obtain ⟨-, -, ⟨h, rfl⟩ | h⟩ := hw <;> cases h
      · rfl
      · rfl
    · rw [if_neg e] at hi
      obtain ⟨-, -, ⟨rfl, rfl⟩ | rfl⟩ := hv <;> obtain ⟨-, -, ⟨rfl, rfl⟩ | rfl⟩ := hw <;> simp at hi
      exact ⟨by omega, .inr hi.2⟩
  refine ⟨?_, hl, fun f x hx h => ?_⟩
  · unfold cvtWay
    by_cases hi : implicit conv v w = true
    · simp [hi]
    · simp [hi, hc]
  · rw [(hl h).1, ← hx]
    exact Simd.staticSimdCast_spec f x

/-- **C77.** `cvt` of a mask converts to exactly the masks with as many elements. -/
theorem cvt_mask (conv : Ty → Ty → Bool) (v u w t : Ty) (n m : Nat) (hv : IsMaskOf v u n) (hw : IsMaskOf w t m) :
    (cvtWay conv v w).isSome = true ↔ m = n := by
  obtain ⟨-, h2, h3⟩ := staticCastType_mask v u n hv t
  constructor
  · intro h
    refine Classical.byContradiction fun hm => ?_
    have hc := h3 w m hm hw
    have hi : implicit conv v w = false := by
      unfold implicit
      have e : v ≠ w := by
        rintro rfl
        obtain ⟨-, -, ⟨rfl, rfl⟩ | rfl⟩ := hv <;> obtain ⟨-, -, ⟨h, rfl⟩ | h⟩ := hw <;> cases h <;> exact hm rfl
      rw [if_neg e]
      obtain ⟨-, -, ⟨rfl, rfl⟩ | rfl⟩ := hv <;> obtain ⟨-, -, ⟨rfl, rfl⟩ | rfl⟩ := hw <;> simp
      intro h; omega
    simp [cvtWay, hi, hc] at h
  · rintro rfl
    unfold cvtWay
    by_cases hi : implicit conv v w = true
    · simp [hi]
    · simp [hi, h2 w hw]

/-- **C77, limit of the claim.** `cvt` of a simd with two elements converts to a simd with four (whose third lane then fails the check of the
subscript), and to one with one element, dropping the other. -/
theorem cvt_sizes : cvtWay (fun _ _ => false) (.simd int32 (.fixedSize 2)) (.simd int32 (.fixedSize 4)) = some false ∧
    Simd.staticSimdCast 4 IntTy.i32.conv [1, 2] = .trap ∧
    cvtWay (fun _ _ => false) (.simd int32 (.fixedSize 2)) (.simd int32 .scalar) = some false ∧
    Simd.staticSimdCast 1 IntTy.i32.conv [1, 2] = .ok [1] := by decide

example : cvtWay (fun _ _ => true) (.simd int32 (.fixedSize 2)) (.simd float32 (.fixedSize 2)) = some true ∧
    cvtWay (fun _ _ => true) (.simd int32 .scalar) (.simd float32 .scalar) = some false := by decide

/-! ## The theorems applied to concrete data -/

private theorem fourInts : IsSimdOf (.simd int32 (.fixedSize 4)) int32 4 := ⟨⟨_, rfl⟩, by decide, Or.inr rfl⟩
private theorem fourFloats : IsSimdOf (.simd float32 (.fixedSize 4)) float32 4 := ⟨⟨_, rfl⟩, by decide, Or.inr rfl⟩
private theorem fourBools : IsMaskOf (.mask int32 (.fixedSize 4)) int32 4 := ⟨⟨_, rfl⟩, by decide, Or.inr rfl⟩
private theorem fourBools' : IsMaskOf (.mask float32 (.fixedSize 4)) float32 4 := ⟨⟨_, rfl⟩, by decide, Or.inr rfl⟩

example := asInt_spec ⟨false, true, true⟩ 4 .long (by decide)
example := asUnsigned_spec ⟨true, true, false⟩ 2 .ushort (by decide)
example := convertible_iff_partial ⟨true, true, true⟩ (fun _ q => q) (fun _ => ⟨fun _ _ => rfl, fun _ _ h => h⟩) .int .llong
  (by decide) (by decide)
example := staticCastType_simd _ _ 4 fourInts float32
example := staticCastType_mask _ _ 4 fourBools float32
example := simdCastType_spec (fun _ _ => true) _ _ 4 fourInts float32
example := cvt_simd (fun _ _ => true) _ _ _ _ 4 4 fourInts fourFloats
example := cvt_mask (fun _ _ => true) _ _ _ _ 4 4 fourBools fourBools'

end Vir.Casts
