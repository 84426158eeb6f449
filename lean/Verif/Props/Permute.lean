import Mathlib.Tactic.ByContra
import Mathlib.Tactic.Lift
import Mathlib.Tactic.Push
import Verif.Lemmas.Permute

/-! # C22-C26: permutations -/

namespace Vir.Permute
open Vir.Simd Vir.Spec

variable {α : Type}

/-- The call `simd_permute<n>(v, ...)` involves only objects without padding, of a size the compiler can count. -/
structure Plain (P : PEnv) (n : Nat) (v : List α) : Prop where
  pos : 0 < v.length
  small : v.length < 2 ^ 31 - 2
  /-- `sizeof(R)` is the size of the lanes of the result. -/
  sizeR : P.sizeR = (if n = 0 then v.length else n) * P.sizeT
  float : P.isFloat = true → P.sizeT = 4

/-- The index function is no rotation, or it is one for which the AVX2 code is not used or right. -/
def GoodRotation (P : PEnv) (n : Nat) (f : IdxFn) (rot : Option Int) : Prop :=
  rot = none ∨ ∃ o, rot = some o ∧ f = rotate o ∧
    (P.avx2 = false ∨ P.isFloat = false ∨ o % 2 ≠ 0 ∨ (0 ≤ o ∧ o < 8 ∧ (n = 0 ∨ n = 8)))

/-- The index computed by `Rotate`: the mathematical remainder, if the sum is not negative or the size divides `2^64`. -/
theorem rotate_idx {o : Int} {i size : Nat} (hi : i < size) (hs : size < 2 ^ 31 - 2) (hc : -2 ^ 31 ≤ i + o ∧ (i : Int) + o < 2 ^ 31)
    (h : 0 ≤ (i : Int) + o ∨ size ∣ 2 ^ 64) : rotate o i size = .ok (((i : Int) + o) % size) := by
  rw [rotate, cint_eq hc, Outcome.bind_ok, if_neg (by omega)]
  have hlt : (((i : Int) + o) % size).toNat < size := by
    have h1 := Int.emod_nonneg ((i : Int) + o) (show (size : Int) ≠ 0 by omega)
    have h2 := Int.emod_lt_of_pos ((i : Int) + o) (show (0 : Int) < size by omega)
    omega
  have hm : toU64 (i + o) % size = (((i : Int) + o) % size).toNat := by
    rcases h with h | h
    · rw [toU64_nonneg h (by omega)]
      generalize hx : (i : Int) + o = x at h hc ⊢
      lift x to Nat using h
      rw [Int.toNat_natCast, ← Int.natCast_emod, Int.toNat_natCast]
    · unfold toU64
      have hx : (((i : Int) + o) % 2 ^ 64) % size = ((i : Int) + o) % size :=
        Int.emod_emod_of_dvd _ (by exact_mod_cast h)
      rw [← hx]
      have h0 := Int.emod_nonneg ((i : Int) + o) (show (2 ^ 64 : Int) ≠ 0 by decide)
      generalize hy : ((i : Int) + o) % 2 ^ 64 = y at h0 ⊢
      lift y to Nat using h0
      rw [Int.toNat_natCast, ← Int.natCast_emod, Int.toNat_natCast]
  rw [hm, toI32_small (by omega)]
  have h1 := Int.emod_nonneg ((i : Int) + o) (show (size : Int) ≠ 0 by omega)
  congr 1; omega

/-- The AVX2 code for eight lanes and even offsets below eight. -/
theorem avx_eq_generic {zero : α} {junk : Nat → Outcome α} {o : Int} {v : List α} (h8 : v.length = 8) (he : o % 2 = 0)
    (h0 : 0 ≤ o) (hlt : o < 8) :
    ∃ r, r.length = 8 ∧ permdf256 v (avxControl o) = .ok r ∧ generic zero junk 8 (rotate o) v = .ok r := by
  obtain ⟨r, h1, h2, h3⟩ := generic_of_index (zero := zero) (junk := junk) (v := v) (n := 8) (f := rotate o)
    (fun i => (((i : Int) + o) % 8).toNat) (by omega) (fun i hi => ⟨by omega, Or.inl (by
      rw [h8, rotate_idx hi (by omega) (by omega) (by omega)]; congr 1; omega)⟩)
  have hc : avxControl o < 256 ∧
      ∀ i : Nat, i < 8 → avxControl o / 4 ^ (i / 2) % 4 * 2 + i % 2 = (((i : Int) + o) % 8).toNat := by
    have : o = 0 ∨ o = 2 ∨ o = 4 ∨ o = 6 := by omega
    rcases this with rfl | rfl | rfl | rfl <;> decide
  refine ⟨r, h2, ?_, h1⟩
  rw [permdf256, if_pos hc.1]
  refine gen_list h2 fun i x hx => ?_
  have hi : i < 8 := by
    have := (List.getElem?_eq_some_iff.1 hx).1
    omega
  rw [h3 i hi, ← hc.2 i hi] at hx
  rw [rd, hx]

/-- **C22 (all implementations agree).** Whatever implementation the platform selects, the result is that of the generic
implementation, including the cases in which the program is ill-formed. -/
theorem simdPermute_eq_generic (P : PEnv) (zero : α) (junk : Nat → Outcome α) (n : Nat) (f : IdxFn) (rot : Option Int)
    (v : List α) (hp : Plain P n v) (hrot : GoodRotation P n f rot) :
    simdPermute P zero junk [] n f rot v = generic zero junk (if n = 0 then v.length else n) f v := by
  have hs : ∀ m, shuffled zero junk [] m f v = generic zero junk m f v :=
    fun m => shuffled_eq_generic hp.pos hp.small (Or.inl rfl)
  have hR := hp.sizeR
  unfold simdPermute
  simp only [List.append_nil]
  split
  · have hsh : ∀ b : Bool, (if b = true then
          if (if n = 0 then v.length else n) * P.sizeT = P.sizeR then
            shuffled zero junk [] (if n = 0 then v.length else n) f v
          else Outcome.ub UB.staticAssert
        else generic zero junk (if n = 0 then v.length else n) f v) =
        generic zero junk (if n = 0 then v.length else n) f v := by
      intro b
      rw [if_pos hR.symm, hs]
      exact ite_self _
    cases rot with
    | none => exact hsh _
    | some o =>
      rcases hrot with h | ⟨o', h, rfl, hgood⟩
      · simp at h
      obtain rfl : o = o' := by simpa using h
      simp only
      split
      · rename_i hav
        simp only [Bool.and_eq_true, beq_iff_eq] at hav
        obtain ⟨⟨⟨⟨ha, hfl⟩, _⟩, h32⟩, heven⟩ := hav
        have h4 := hp.float hfl
        rw [h4] at h32 hR
        have h8 : v.length = 8 := by omega
        have he : o % 2 = 0 := by
          have := Int.tmod_eq_emod_of_nonneg (a := o) (b := 2)
          by_cases h0 : 0 ≤ o
          · rw [← this h0]; exact heven
          · exact Int.emod_eq_zero_of_dvd (Int.dvd_of_tmod_eq_zero heven)
        rcases hgood with h | h | h | ⟨h0, hlt, hn⟩
        · rw [h] at ha; simp at ha
        · rw [h] at hfl; simp at hfl
        · exact absurd he h
        have hn8 : (if n = 0 then v.length else n) = 8 := by
          rcases hn with rfl | rfl
          · simpa using h8
          · rfl
        rw [hn8] at hR ⊢
        obtain ⟨r, hl, h1, h2⟩ := avx_eq_generic (zero := zero) (junk := junk) h8 he h0 hlt
        rw [if_pos hR, h1, h2, Outcome.bind_ok, List.take_of_length_le (by omega)]
      · exact hsh _
  · rfl

/-- **C22 (partial).** `simd_permute<n>(v, f)` has the requested width and lane `i` is the one `f(i)` asks for, whatever
implementation is used. Missing: objects with padding (`simdPermute_padding`) and the rotations of C25. -/
theorem simdPermute_spec_partial (P : PEnv) (zero : α) (junk : Nat → Outcome α) (n : Nat) (f : IdxFn) (rot : Option Int)
    (v : List α) (hp : Plain P n v) (hrot : GoodRotation P n f rot)
    (hf : ∀ i, i < (if n = 0 then v.length else n) → ∃ j x, f i v.length = .ok j ∧ Picks zero v j x) :
    ∃ r, simdPermute P zero junk [] n f rot v = .ok r ∧ r.length = (if n = 0 then v.length else n) ∧
      ∀ i x, r[i]? = some x → ∃ j, f i v.length = .ok j ∧ Picks zero v j x := by
  rw [simdPermute_eq_generic P zero junk n f rot v hp hrot]
  generalize (if n = 0 then v.length else n) = m at hf
  classical
  have key : ∀ i, ∃ x, i < m → ∃ j, f i v.length = .ok j ∧ Picks zero v j x := by
    intro i
    by_cases hi : i < m
    · obtain ⟨j, x, h1, h2⟩ := hf i hi
      exact ⟨x, fun _ => ⟨j, h1, h2⟩⟩
    · exact ⟨zero, fun h => absurd h hi⟩
  obtain ⟨g, hg⟩ := Classical.axiomOfChoice key
  refine ⟨(List.range m).map g, gen_eq m _ g (fun i hi => ?_), by simp, ?_⟩
  · obtain ⟨j, h1, h2⟩ := hg i hi
    exact genericLane_picks hp.small h1 h2
  · intro i x hx
    obtain ⟨hi, rfl⟩ := List.getElem?_eq_some_iff.1 hx
    simp only [List.length_map, List.length_range] at hi
    obtain ⟨j, h1, h2⟩ := hg i hi
    exact ⟨j, h1, by simpa using h2⟩

/-- **C22 (rejected programs).** An index outside `[-size, size)` other than the two constants is rejected at compile time,
on every implementation: it never becomes an access to another lane. -/
theorem simdPermute_rejects (P : PEnv) (zero : α) (junk : Nat → Outcome α) (n : Nat) (f : IdxFn) (rot : Option Int)
    (v : List α) (hp : Plain P n v) (hrot : GoodRotation P n f rot)
    (hf : ∀ i, i < (if n = 0 then v.length else n) → ∃ j, f i v.length = .ok j ∧ j ≠ permuteUninit)
    {i : Nat} {j : Int} (hi : i < (if n = 0 then v.length else n)) (hj : f i v.length = .ok j)
    (hout : j ≠ permuteZero ∧ (j < -v.length ∨ (v.length : Int) ≤ j)) :
    simdPermute P zero junk [] n f rot v = .ub .staticAssert := by
  rw [simdPermute_eq_generic P zero junk n f rot v hp hrot]
  have hlane : ∀ i j, f i v.length = .ok j → j ≠ permuteUninit →
      (∃ x, genericLane zero junk f v i = .ok x) ∨ genericLane zero junk f v i = .ub .staticAssert := by
    intro i j hj hu
    rw [genericLane, hj, Outcome.bind_ok]
    have := hp.small
    by_cases h1 : j = permuteZero
    · exact Or.inl ⟨zero, by rw [if_pos h1]⟩
    rw [if_neg h1, if_neg hu]
    by_cases h2 : j < 0
    · rw [if_pos h2]
      by_cases h3 : -j ≤ v.length
      · left
        rw [if_pos h3, toU64_nonneg (by omega) (by omega), at'_eq (by omega)]
        exact ⟨_, rfl⟩
      · right; rw [if_neg h3]
    · rw [if_neg h2]
      by_cases h3 : j < v.length
      · left
        rw [if_pos h3, toU64_nonneg (by omega) (by omega), at'_eq (by omega)]
        exact ⟨_, rfl⟩
      · right; rw [if_neg h3]
  refine gen_ub (k := i) (fun i hi => ?_) hi ?_
  · obtain ⟨j, h1, h2⟩ := hf i hi
    exact hlane i j h1 h2
  · obtain ⟨j', h1, h2⟩ := hf i hi
    obtain rfl : j = j' := by rw [hj] at h1; simpa using h1
    rw [genericLane, hj, Outcome.bind_ok, if_neg hout.1, if_neg h2]
    by_cases h3 : j < 0
    · rw [if_pos h3, if_neg (by omega)]
    · rw [if_neg h3, if_neg (by omega)]

/-- **C22 (padding: false in general).** If the simd object has padding (as fixed-size types whose width is no power of two may
have), the shufflevector implementation answers `simd_permute_zero` with the contents of the padding. -/
theorem simdPermute_padding : ∃ (P : PEnv) (v pad : List Nat), v.length = 3 ∧ pad.length = 1 ∧
    simdPermute P 0 (fun _ => .ub .uninit) pad 4 (fun _ _ => .ok permuteZero) none v = .ok [77, 77, 77, 77] ∧
    generic 0 (fun _ => .ub .uninit) 4 (fun _ _ => .ok permuteZero) v = .ok [0, 0, 0, 0] :=
  ⟨⟨false, false, true, true, true, true, 4, 16, 4⟩, [1, 2, 3], [77], rfl, rfl, by decide +kernel, by decide +kernel⟩

/-- **C22 (padding, what holds).** With padding the result is still right if no lane asks for a zero and the index function is no
rotation handled by AVX2 code. -/
theorem simdPermute_padding_partial (P : PEnv) (zero : α) (junk : Nat → Outcome α) (pad : List α) (n : Nat) (f : IdxFn)
    (v : List α) (h0 : 0 < v.length) (hv : v.length < 2 ^ 31 - 2)
    (hR : P.sizeR = (if n = 0 then v.length else n) * P.sizeT)
    (hz : ∀ i, i < (if n = 0 then v.length else n) → f i v.length ≠ .ok permuteZero) :
    simdPermute P zero junk pad n f none v = generic zero junk (if n = 0 then v.length else n) f v := by
  unfold simdPermute
  simp only
  rw [if_pos hR.symm, shuffled_eq_generic h0 hv (Or.inr hz)]
  split
  · exact ite_self _
  · rfl

/-- **C22 (scalar overload).** `simd_permute(x, f)` for a scalar behaves like the one-lane simd; the result is a scalar, written
as a list of one lane. -/
theorem simdPermuteScalar_spec {n : Nat} (hn : n ≤ 1) (P P' : PEnv) (zero : α) (junk : Nat → Outcome α) (f : IdxFn) (v : α) (hP : Plain P 1 [v]) :
    simdPermuteScalar P' zero junk n f none v = simdPermute P zero junk [] 1 f none [v] := by
  rw [simdPermute_eq_generic P zero junk 1 f none [v] hP (Or.inl rfl)]
  unfold simdPermuteScalar
  rw [if_pos hn]
  show _ = gen 1 (genericLane zero junk f [v])
  simp only [gen, genFrom, genericLane, List.length_singleton]
  cases hf : f 0 1 with
  | ok j =>
    simp only [Outcome.bind_ok]
    by_cases h1 : j = permuteZero
    · rw [if_pos h1, if_pos h1]; rfl
    rw [if_neg h1, if_neg h1]
    by_cases h2 : j = permuteUninit
    · rw [if_pos h2, if_pos h2]
    rw [if_neg h2, if_neg h2]
    by_cases h3 : j = 0 ∨ j = -1
    · rw [if_pos h3]
      rcases h3 with rfl | rfl <;> rfl
    · rw [if_neg h3]
      by_cases h4 : j < 0
      · rw [if_pos h4, if_neg (by omega)]; rfl
      · rw [if_neg h4, if_neg (by omega)]; rfl
  | ub r => rfl
  | trap => rfl

/-! ## C23: predefined permutations -/

/-- **C23, duplicate_even.** Lanes `2k` and `2k + 1` are lane `2k` of the input. -/
theorem duplicateEven_spec (P : PEnv) (zero : α) (junk : Nat → Outcome α) (v : List α) (hp : Plain P 0 v) :
    ∃ r, simdPermute P zero junk [] 0 duplicateEven none v = .ok r ∧ r.length = v.length ∧
      ∀ k, (2 * k < v.length → r[2 * k]? = v[2 * k]?) ∧ (2 * k + 1 < v.length → r[2 * k + 1]? = v[2 * k]?) := by
  have hs := hp.small
  rw [simdPermute_eq_generic P zero junk 0 _ none v hp (Or.inl rfl), if_pos rfl]
  obtain ⟨r, h1, h2, h3⟩ := generic_of_index (zero := zero) (junk := junk) (v := v) (n := v.length) (f := duplicateEven)
    (fun i => i / 2 * 2) hs (fun i hi => ⟨by omega, Or.inl (by
      have hand : i &&& (2 ^ 32 - 2) = i / 2 * 2 := by
        have h1 : (i &&& (2 ^ 32 - 2)) / 2 = i / 2 := by
          have := Nat.and_div_two_pow (a := i) (b := 2 ^ 32 - 2) (n := 1)
          rw [Nat.pow_one] at this
          rw [this]
          have : (2 ^ 32 - 2) / 2 = 2 ^ 31 - 1 := by decide
          rw [this, Nat.and_two_pow_sub_one_eq_mod, Nat.mod_eq_of_lt (by omega)]
        have h2 : (i &&& (2 ^ 32 - 2)) % 2 = 0 := by
          have := Nat.and_mod_two_pow (a := i) (b := 2 ^ 32 - 2) (n := 1)
          rw [Nat.pow_one] at this
          rw [this]; exact Nat.and_zero _
        omega
      rw [duplicateEven, toU32_nat (by omega), hand, toI32_small (by omega)])⟩)
  refine ⟨r, h1, h2, fun k => ⟨fun hk => ?_, fun hk => ?_⟩⟩
  · rw [h3 _ hk]; congr 1; omega
  · rw [h3 _ hk]; congr 1; omega

/-- **C23, duplicate_odd.** For an even width, lanes `2k` and `2k + 1` are lane `2k + 1` of the input. -/
theorem duplicateOdd_spec (P : PEnv) (zero : α) (junk : Nat → Outcome α) (v : List α) (hp : Plain P 0 v)
    (heven : v.length % 2 = 0) :
    ∃ r, simdPermute P zero junk [] 0 duplicateOdd none v = .ok r ∧ r.length = v.length ∧
      ∀ k, 2 * k + 1 < v.length → r[2 * k]? = v[2 * k + 1]? ∧ r[2 * k + 1]? = v[2 * k + 1]? := by
  have hs := hp.small
  rw [simdPermute_eq_generic P zero junk 0 _ none v hp (Or.inl rfl), if_pos rfl]
  obtain ⟨r, h1, h2, h3⟩ := generic_of_index (zero := zero) (junk := junk) (v := v) (n := v.length) (f := duplicateOdd)
    (fun i => i / 2 * 2 + 1) hs (fun i hi => ⟨by omega, Or.inl (by
      have hor : i ||| 1 = i / 2 * 2 + 1 := by
        have h1 : (i ||| 1) / 2 = i / 2 := by
          have := Nat.or_div_two_pow (a := i) (b := 1) (n := 1)
          simpa using this
        have h2 : (i ||| 1) % 2 = 1 := by
          have := Nat.or_mod_two_pow (a := i) (b := 1) (n := 1)
          rw [Nat.pow_one] at this
          rw [this]
          rcases Nat.mod_two_eq_zero_or_one i with h | h <;> rw [h] <;> rfl
        omega
      rw [duplicateOdd, toU32_nat (by omega), hor, toI32_small (by omega)])⟩)
  refine ⟨r, h1, h2, fun k hk => ⟨?_, ?_⟩⟩
  · rw [h3 _ (by omega)]; congr 1; omega
  · rw [h3 _ hk]; congr 1; omega

/-- **C23, duplicate_odd.** For an odd width it is rejected at compile time. -/
theorem duplicateOdd_odd (P : PEnv) (zero : α) (junk : Nat → Outcome α) (v : List α) (hp : Plain P 0 v)
    (hodd : v.length % 2 = 1) : simdPermute P zero junk [] 0 duplicateOdd none v = .ub .staticAssert := by
  have hs := hp.small
  have hidx : ∀ i, i < v.length → duplicateOdd i v.length = .ok ((i / 2 * 2 + 1 : Nat) : Int) := by
    intro i hi
    have hor : i ||| 1 = i / 2 * 2 + 1 := by
      have h1 : (i ||| 1) / 2 = i / 2 := by
        have := Nat.or_div_two_pow (a := i) (b := 1) (n := 1)
        simpa using this
      have h2 : (i ||| 1) % 2 = 1 := by
        have := Nat.or_mod_two_pow (a := i) (b := 1) (n := 1)
        rw [Nat.pow_one] at this
        rw [this]
        rcases Nat.mod_two_eq_zero_or_one i with h | h <;> rw [h] <;> rfl
      omega
    rw [duplicateOdd, toU32_nat (by omega), hor, toI32_small (by omega)]
  refine simdPermute_rejects P zero junk 0 _ none v hp (Or.inl rfl) (fun i hi => ?_) (i := v.length - 1)
    (by rw [if_pos rfl]; omega) (hidx _ (by omega)) ⟨by unfold permuteZero; omega, by right; omega⟩
  rw [if_pos rfl] at hi
  exact ⟨_, hidx i hi, by unfold permuteUninit permuteZero; omega⟩

/-- **C23, broadcast.** All lanes are lane `P` of the input, counted from the end if negative. -/
theorem broadcast_spec (P : PEnv) (zero : α) (junk : Nat → Outcome α) (v : List α) (hp : Plain P 0 v) (p : Int)
    (h1 : -v.length ≤ p) (h2 : p < v.length) :
    ∃ x, (if 0 ≤ p then v[p.toNat]? else v.reverse[(-p - 1).toNat]?) = some x ∧
      simdPermute P zero junk [] 0 (broadcast p) none v = .ok (List.replicate v.length x) := by
  have hs := hp.small
  rw [simdPermute_eq_generic P zero junk 0 _ none v hp (Or.inl rfl), if_pos rfl]
  have hg : (if 0 ≤ p then p.toNat else (v.length + p).toNat) < v.length := by split <;> omega
  obtain ⟨r, h3, h4, h5⟩ := generic_of_index (zero := zero) (junk := junk) (v := v) (n := v.length) (f := broadcast p)
    (fun _ => if 0 ≤ p then p.toNat else (v.length + p).toNat) hs (fun i hi => ⟨hg, by
      unfold broadcast
      by_cases h0 : 0 ≤ p
      · left; rw [if_pos h0]; congr 1; omega
      · right; rw [if_neg h0]; congr 1; omega⟩)
  refine ⟨v[if 0 ≤ p then p.toNat else (v.length + p).toNat], ?_, ?_⟩
  · by_cases h0 : 0 ≤ p
    · simp only [if_pos h0]
      rw [List.getElem?_eq_getElem (by omega)]
    · simp only [if_neg h0]
      rw [List.getElem?_reverse (by omega), List.getElem?_eq_getElem (by omega)]
      congr 2; omega
  · rw [h3]
    congr 1
    refine List.ext_getElem? fun i => ?_
    by_cases hi : i < v.length
    · rw [h5 i hi, List.getElem?_replicate, if_pos hi, List.getElem?_eq_getElem hg]
    · rw [List.getElem?_eq_none (by omega), List.getElem?_eq_none (by simp; omega)]

/-- **C23, reverse.** -/
theorem reverse_spec (P : PEnv) (zero : α) (junk : Nat → Outcome α) (v : List α) (hp : Plain P 0 v) :
    simdPermute P zero junk [] 0 reverse none v = .ok v.reverse := by
  have hs := hp.small
  rw [simdPermute_eq_generic P zero junk 0 _ none v hp (Or.inl rfl), if_pos rfl]
  obtain ⟨r, h3, h4, h5⟩ := generic_of_index (zero := zero) (junk := junk) (v := v) (n := v.length) (f := reverse)
    (fun i => v.length - 1 - i) hs (fun i hi => ⟨by omega, by
      right; rw [reverse, cint_eq (by omega)]; congr 1; omega⟩)
  rw [h3]
  congr 1
  refine List.ext_getElem? fun i => ?_
  by_cases hi : i < v.length
  · rw [h5 i hi, List.getElem?_reverse hi]
  · rw [List.getElem?_eq_none (by omega), List.getElem?_eq_none (by simp; omega)]

/-- **C23, reverse is an involution.** -/
theorem reverse_involution (P : PEnv) (zero : α) (junk : Nat → Outcome α) (v : List α) (hp : Plain P 0 v) :
    (do simdPermute P zero junk [] 0 reverse none (← simdPermute P zero junk [] 0 reverse none v)) = .ok v := by
  rw [reverse_spec P zero junk v hp, Outcome.bind_ok, reverse_spec P zero junk v.reverse, List.reverse_reverse]
  exact ⟨by simpa using hp.pos, by simpa using hp.small, by simpa using hp.sizeR, hp.float⟩

/-- The index computed by `SwapNeighbors`. -/
theorem swapNeighbors_idx {n i size : Nat} (hn : 0 < n) (hd : size % (2 * n) = 0) (hi : i < size) (hs : size < 2 ^ 31 - 2) :
    (if i % (2 * n) ≥ n then i - n else i + n) < size ∧
    swapNeighbors n i size = .ok ((if i % (2 * n) ≥ n then i - n else i + n : Nat) : Int) := by
  have hdm := Nat.div_add_mod i (2 * n)
  have hsd := Nat.div_add_mod size (2 * n)
  rw [hd, Nat.add_zero] at hsd
  have hq : i / (2 * n) < size / (2 * n) := by
    by_contra hc
    have := Nat.mul_le_mul_left (2 * n) (Nat.le_of_not_lt hc)
    have := Nat.mod_lt i (show 0 < 2 * n by omega)
    omega
  have hq' := Nat.mul_le_mul_left (2 * n) (Nat.succ_le_of_lt hq)
  rw [hsd, Nat.succ_eq_add_one, Nat.mul_add] at hq'
  have hle : 2 * n ≤ size := by omega
  have hlt := Nat.mod_lt i (show 0 < 2 * n by omega)
  refine ⟨by split <;> omega, ?_⟩
  have h2n : toU32 (2 * (n : Int)) = 2 * n := by
    have := toU32_nat (x := 2 * n) (by omega)
    simpa using this
  unfold swapNeighbors
  simp only [toU32_nat (show i < 2 ^ 32 by omega), h2n]
  rw [if_neg (by omega), if_neg (by omega)]
  by_cases hb : hasSingleBit n = true
  · obtain ⟨k, rfl⟩ := (hasSingleBit_iff n).1 hb
    rw [if_pos hb, xor_two_pow, toI32_small (by split <;> omega)]
  · rw [if_neg hb]
    by_cases hc : i % (2 * n) ≥ n
    · rw [if_pos hc, if_pos hc]
      have : ((i : Int) - n) = ((i - n : Nat) : Int) := by omega
      rw [this, toU32_nat (by omega), toI32_small (by omega)]
    · rw [if_neg hc, if_neg hc]
      have : ((i : Int) + n) = ((i + n : Nat) : Int) := by omega
      rw [this, toU32_nat (by omega), toI32_small (by omega)]

/-- **C23, swap_neighbors.** For a width that is a multiple of `2N`, the blocks `2q` and `2q + 1` of `N` lanes are exchanged. -/
theorem swapNeighbors_spec (P : PEnv) (zero : α) (junk : Nat → Outcome α) (v : List α) (hp : Plain P 0 v) (n : Nat) (hn : 0 < n)
    (hd : v.length % (2 * n) = 0) :
    ∃ r, simdPermute P zero junk [] 0 (swapNeighbors n) none v = .ok r ∧ r.length = v.length ∧
      ∀ q t, t < n → (2 * q + 1) * n + t < v.length →
        r[2 * q * n + t]? = v[(2 * q + 1) * n + t]? ∧ r[(2 * q + 1) * n + t]? = v[2 * q * n + t]? := by
  have hs := hp.small
  rw [simdPermute_eq_generic P zero junk 0 _ none v hp (Or.inl rfl), if_pos rfl]
  obtain ⟨r, h1, h2, h3⟩ := generic_of_index (zero := zero) (junk := junk) (v := v) (n := v.length) (f := swapNeighbors n)
    (fun i => if i % (2 * n) ≥ n then i - n else i + n) hs
    (fun i hi => ⟨(swapNeighbors_idx hn hd hi hs).1, Or.inl (swapNeighbors_idx hn hd hi hs).2⟩)
  refine ⟨r, h1, h2, fun q t ht hl => ?_⟩
  have e1 : (2 * q + 1) * n = 2 * q * n + n := by rw [Nat.add_mul]; omega
  rw [e1] at hl ⊢
  have e2 : (2 * q * n + t) % (2 * n) = t := by
    rw [show 2 * q * n + t = t + 2 * n * q by rw [Nat.mul_right_comm]; omega, Nat.add_mul_mod_self_left]
    exact Nat.mod_eq_of_lt (by omega)
  have e3 : (2 * q * n + n + t) % (2 * n) = n + t := by
    rw [show 2 * q * n + n + t = n + t + 2 * n * q by rw [Nat.mul_right_comm]; omega, Nat.add_mul_mod_self_left]
    exact Nat.mod_eq_of_lt (by omega)
  constructor
  · rw [h3 _ (by omega), if_neg (by omega)]; congr 1; omega
  · rw [h3 _ (by omega), if_pos (by omega)]; congr 1; omega

/-- **C23, swap_neighbors is an involution.** -/
theorem swapNeighbors_involution (P : PEnv) (zero : α) (junk : Nat → Outcome α) (v : List α) (hp : Plain P 0 v) (n : Nat)
    (hn : 0 < n) (hd : v.length % (2 * n) = 0) :
    (do simdPermute P zero junk [] 0 (swapNeighbors n) none (← simdPermute P zero junk [] 0 (swapNeighbors n) none v)) =
      .ok v := by
  have hs := hp.small
  have gi : ∀ w : List α, w.length = v.length → ∃ r, generic zero junk v.length (swapNeighbors n) w = .ok r ∧
      r.length = v.length ∧ ∀ i, i < v.length → r[i]? = w[if i % (2 * n) ≥ n then i - n else i + n]? := by
    intro w hw
    have := generic_of_index (zero := zero) (junk := junk) (v := w) (n := w.length) (f := swapNeighbors n)
      (fun i => if i % (2 * n) ≥ n then i - n else i + n) (by omega)
      (fun i hi => ⟨(swapNeighbors_idx hn (by rw [hw]; exact hd) hi (by omega)).1,
        Or.inl (swapNeighbors_idx hn (by rw [hw]; exact hd) hi (by omega)).2⟩)
    rwa [hw] at this
  rw [simdPermute_eq_generic P zero junk 0 _ none v hp (Or.inl rfl), if_pos rfl]
  obtain ⟨r, h1, h2, h3⟩ := gi v rfl
  rw [h1, Outcome.bind_ok, simdPermute_eq_generic P zero junk 0 _ none r
    ⟨by rw [h2]; exact hp.pos, by rw [h2]; exact hs, by rw [h2]; exact hp.sizeR, hp.float⟩ (Or.inl rfl), if_pos rfl, h2]
  obtain ⟨r', h4, h5, h6⟩ := gi r h2
  rw [h4]
  congr 1
  refine List.ext_getElem? fun i => ?_
  by_cases hi : i < v.length
  · have hb := (swapNeighbors_idx hn hd hi hs).1
    rw [h6 i hi, h3 _ hb]
    congr 1
    have hdm := Nat.div_add_mod i (2 * n)
    have hlt := Nat.mod_lt i (show 0 < 2 * n by omega)
    by_cases hc : i % (2 * n) ≥ n
    · have : (i - n) % (2 * n) = i % (2 * n) - n := by
        rw [show i - n = (i % (2 * n) - n) + 2 * n * (i / (2 * n)) by omega, Nat.add_mul_mod_self_left]
        exact Nat.mod_eq_of_lt (by omega)
      rw [if_pos hc, this, if_neg (by omega)]; omega
    · have : (i + n) % (2 * n) = i % (2 * n) + n := by
        rw [show i + n = (i % (2 * n) + n) + 2 * n * (i / (2 * n)) by omega, Nat.add_mul_mod_self_left]
        exact Nat.mod_eq_of_lt (by omega)
      rw [if_neg hc, this, if_pos (by omega)]; omega
  · rw [List.getElem?_eq_none (by omega), List.getElem?_eq_none (by omega)]

/-! ## C24, C25: rotate -/

/-- **C24 (exact condition).** The index function of `rotate<O>` is the rotation exactly if the offset is not negative or the
width divides `2^64`. -/
theorem rotate_index_iff {o : Int} {size : Nat} (h0 : 0 < size) (hs : size < 2 ^ 31 - 2) (ho : -2 ^ 31 ≤ o)
    (ho' : o + size ≤ 2 ^ 31) :
    (∀ i : Nat, i < size → rotate o i size = .ok (((i : Int) + o) % size)) ↔ 0 ≤ o ∨ size ∣ 2 ^ 64 := by
  constructor
  · intro h
    by_cases hneg : 0 ≤ o
    · exact Or.inl hneg
    right
    have hi := h 0 h0
    rw [rotate, cint_eq (by omega), Outcome.bind_ok, if_neg (by omega)] at hi
    simp only [Outcome.ok.injEq, Int.natCast_zero, Int.zero_add] at hi
    have hu : toU64 o = (2 ^ 64 + o).toNat := by
      unfold toU64
      rw [← Int.add_emod_right, Int.add_comm, Int.emod_eq_of_lt (by omega) (by omega)]
    have hl := Nat.mod_lt (toU64 o) h0
    rw [toI32_small (by omega), hu] at hi
    have h2 : ((2 ^ 64 + o).toNat : Int) = 2 ^ 64 + o := by omega
    rw [Int.natCast_emod, h2] at hi
    have h3 : ((2 : Int) ^ 64 + o - o) % size = 0 := by
      rw [Int.sub_emod, hi, Int.sub_self, Int.zero_emod]
    rw [Int.add_sub_cancel] at h3
    exact_mod_cast Int.dvd_of_emod_eq_zero h3
  · rintro h i hi
    exact rotate_idx hi hs (by omega) (h.imp_left (by omega))

/-- **C24.** For offsets that are not negative, and for any offset if the width is a power of two, lane `i` of the result is lane
`(i + O) mod size` of the input. (Partial: for negative offsets and other widths the code computes something else, see
`rotate_negative_wrong`.) -/
theorem rotate_spec_partial (P : PEnv) (zero : α) (junk : Nat → Outcome α) (v : List α) (hp : Plain P 0 v) (o : Int)
    (ho : -2 ^ 31 ≤ o) (ho' : o + v.length ≤ 2 ^ 31) (h : 0 ≤ o ∨ ∃ k, v.length = 2 ^ k)
    (hrot : P.avx2 = false ∨ P.isFloat = false ∨ o % 2 ≠ 0 ∨ (0 ≤ o ∧ o < 8)) :
    ∃ r, simdPermute P zero junk [] 0 (rotate o) (some o) v = .ok r ∧ r.length = v.length ∧
      ∀ i : Nat, i < v.length → r[i]? = v[(((i : Int) + o) % v.length).toNat]? := by
  have hs := hp.small
  have h0 := hp.pos
  have hdvd : 0 ≤ o ∨ v.length ∣ 2 ^ 64 := by
    refine h.imp_right ?_
    rintro ⟨k, hk⟩
    rw [hk]
    refine Nat.pow_dvd_pow 2 ?_
    by_contra hc
    have := Nat.pow_le_pow_right (show 0 < 2 by decide) (show 64 ≤ k by omega)
    omega
  rw [simdPermute_eq_generic P zero junk 0 _ (some o) v hp
    (Or.inr ⟨o, rfl, rfl, hrot.imp_right (Or.imp_right (Or.imp_right fun h => ⟨h.1, h.2, Or.inl rfl⟩))⟩), if_pos rfl]
  refine generic_of_index (zero := zero) (junk := junk) (v := v) (n := v.length) (f := rotate o)
    (fun i => (((i : Int) + o) % v.length).toNat) hs (fun i hi => ?_)
  have h1 := Int.emod_nonneg ((i : Int) + o) (show (v.length : Int) ≠ 0 by omega)
  have h2 := Int.emod_lt_of_pos ((i : Int) + o) (show (0 : Int) < v.length by omega)
  refine ⟨by omega, Or.inl ?_⟩
  rw [rotate_idx hi hs (by omega) (hdvd.imp_left (by omega))]
  congr 1; omega

/-- **C24 (false for negative offsets in general).** `rotate<-1>` of three lanes is no rotation: the first lane is copied, the last
one is lost. -/
theorem rotate_negative_wrong (P : PEnv) (junk : Nat → Outcome Nat) (hP : Plain P 0 [10, 20, 30]) :
    simdPermute P 0 junk [] 0 (rotate (-1)) (some (-1)) [10, 20, 30] = .ok [10, 10, 20] := by
  rw [simdPermute_eq_generic P 0 junk 0 _ (some (-1)) _ hP (Or.inr ⟨-1, rfl, rfl, Or.inr (Or.inr (Or.inl (by decide)))⟩)]
  rfl

/-- **C24, rotations compose.** Rotating by `a` and then by `b` is rotating by `a + b`, for offsets that are not negative or power-of-two
widths. -/
theorem rotate_rotate (P : PEnv) (zero : α) (junk : Nat → Outcome α) (v : List α) (hp : Plain P 0 v) (a b : Int)
    (h : (0 ≤ a ∧ 0 ≤ b) ∨ ∃ k, v.length = 2 ^ k) (hP : P.avx2 = false)
    (ha : -2 ^ 30 ≤ a ∧ -2 ^ 30 ≤ b) (ha' : a + v.length ≤ 2 ^ 30 ∧ b + v.length ≤ 2 ^ 30) :
    (do simdPermute P zero junk [] 0 (rotate b) (some b) (← simdPermute P zero junk [] 0 (rotate a) (some a) v)) =
      simdPermute P zero junk [] 0 (rotate (a + b)) (some (a + b)) v := by
  obtain ⟨r, h1, h2, h3⟩ := rotate_spec_partial P zero junk v hp a (by omega) (by omega) (h.imp_left (·.1)) (Or.inl hP)
  have hpr : Plain P 0 r := ⟨by rw [h2]; exact hp.pos, by rw [h2]; exact hp.small, by rw [h2]; exact hp.sizeR, hp.float⟩
  obtain ⟨r', h4, h5, h6⟩ := rotate_spec_partial P zero junk r hpr b (by omega) (by omega)
    (by rw [h2]; exact h.imp_left (·.2)) (Or.inl hP)
  obtain ⟨r'', h7, h8, h9⟩ := rotate_spec_partial P zero junk v hp (a + b) (by omega) (by omega)
    (h.imp_left (by omega)) (Or.inl hP)
  rw [h1, Outcome.bind_ok, h4, h7]
  congr 1
  have hw := hp.pos
  refine List.ext_getElem? fun i => ?_
  by_cases hi : i < v.length
  · have e1 := Int.emod_nonneg ((i : Int) + b) (show (v.length : Int) ≠ 0 by omega)
    have e2 := Int.emod_lt_of_pos ((i : Int) + b) (show (0 : Int) < v.length by omega)
    rw [h6 i (by omega), h9 i hi, h2, h3 _ (by omega)]
    congr 2
    rw [Int.toNat_of_nonneg e1, Int.emod_add_emod]
    congr 1; omega
  · rw [List.getElem?_eq_none (by omega), List.getElem?_eq_none (by omega)]

/-- **C24, `rotate<-O>` undoes `rotate<O>`** for power-of-two widths. -/
theorem rotate_undo (P : PEnv) (zero : α) (junk : Nat → Outcome α) (v : List α) (hp : Plain P 0 v) (a : Int)
    (h : ∃ k, v.length = 2 ^ k) (hP : P.avx2 = false) (ha : -2 ^ 30 ≤ a ∧ -2 ^ 30 ≤ -a)
    (ha' : a + v.length ≤ 2 ^ 30 ∧ -a + v.length ≤ 2 ^ 30) :
    (do simdPermute P zero junk [] 0 (rotate (-a)) (some (-a)) (← simdPermute P zero junk [] 0 (rotate a) (some a) v)) =
      .ok v := by
  rw [rotate_rotate P zero junk v hp a (-a) (Or.inr h) hP ha ha', Int.add_right_neg]
  obtain ⟨r, h1, h2, h3⟩ := rotate_spec_partial P zero junk v hp 0 (by omega) (by omega) (Or.inl (Int.le_refl _)) (Or.inl hP)
  rw [h1]
  congr 1
  refine List.ext_getElem? fun i => ?_
  by_cases hi : i < v.length
  · rw [h3 i hi, Int.add_zero, Int.emod_eq_of_lt (by omega) (by omega), Int.toNat_natCast]
  · rw [List.getElem?_eq_none (by omega), List.getElem?_eq_none (by omega)]

/-- **C25.** The AVX2 code for eight floats and even offsets `0 <= O < 8` computes what the generic code computes. (Partial: outside
of this range see `avx_rotate_exact` and `avx_rotate_negative`.) -/
theorem avx_rotate_partial (P : PEnv) (zero : α) (junk : Nat → Outcome α) (v : List α) (hp : Plain P 0 v) (o : Int)
    (h : 0 ≤ o ∧ o < 8) :
    simdPermute P zero junk [] 0 (rotate o) (some o) v = generic zero junk v.length (rotate o) v := by
  rw [simdPermute_eq_generic P zero junk 0 _ _ v hp
    (Or.inr ⟨o, rfl, rfl, Or.inr (Or.inr (Or.inr ⟨h.1, h.2, Or.inl rfl⟩))⟩), if_pos rfl]

/-- **C25 (exact for all offsets the compiler accepts).** For even offsets `O = 2m`, `0 <= m < 256`, the AVX2 code moves the right
lanes exactly for these `m`. -/
theorem avx_rotate_exact : ∀ m : Fin 256,
    (permdf256 [0, 1, 2, 3, 4, 5, 6, 7] (avxControl (2 * m.val)) =
      .ok ((List.range 8).map fun i => (i + 2 * m.val) % 8)) ↔
    m.val ∈ [0, 1, 2, 3, 4, 6, 9, 10, 14, 17, 19, 25, 32, 33, 36, 41, 49, 57, 64, 66, 68, 70, 74, 78, 96, 100, 128, 131, 132,
      147, 160, 164, 192, 196, 224, 228] := by
  decide +kernel

/-- **C25 (false as stated).** `rotate<10>` of eight floats with AVX2 gives other lanes than without. -/
theorem avx_rotate_wrong : ∃ P Q : PEnv, P.avx2 = true ∧ Q = { P with avx2 := false } ∧ Plain P 0 [0, 1, 2, 3, 4, 5, 6, 7] ∧
    simdPermute P 0 (fun _ => .ub .uninit) [] 0 (rotate 10) (some 10) [0, 1, 2, 3, 4, 5, 6, 7] =
      .ok [2, 3, 6, 7, 6, 7, 0, 1] ∧
    simdPermute Q 0 (fun _ => .ub .uninit) [] 0 (rotate 10) (some 10) [0, 1, 2, 3, 4, 5, 6, 7] =
      .ok [2, 3, 4, 5, 6, 7, 0, 1] := by
  refine ⟨⟨false, true, true, true, true, true, 4, 32, 8⟩, _, rfl, rfl, ⟨by decide, by decide, by decide, by decide⟩, ?_, ?_⟩ <;>
    decide +kernel

/-- **C25 (negative offsets).** A negative even offset and any even offset of 512 or more gives a control word that is no 8-bit
constant: the AVX2 code does not compile. -/
theorem avx_rotate_negative (v : List α) (o : Int) (he : o % 2 = 0) (h : (-2 ^ 31 ≤ o ∧ o < 0) ∨ (512 ≤ o ∧ o < 2 ^ 31)) :
    permdf256 v (avxControl o) = .ub .staticAssert := by
  have key : ∀ a b c d : Nat, 256 ≤ a → ¬ a ||| b ||| c ||| d < 256 := by
    intro a b c d ha hlt
    have h1 : a ≤ a ||| b := Nat.left_le_or
    have h2 : a ||| b ≤ a ||| b ||| c := Nat.left_le_or
    have h3 : a ||| b ||| c ≤ a ||| b ||| c ||| d := Nat.left_le_or
    omega
  rw [permdf256, if_neg]
  refine key _ _ _ _ ?_
  obtain ⟨m, rfl⟩ : ∃ m, o = m * 2 := ⟨o / 2, by omega⟩
  rw [Int.mul_tdiv_cancel _ (by decide)]
  unfold toU32
  omega

/-! ## C26: shift and simd_shift_in -/

/-- **C26, shift.** Lane `i` is lane `i + O` of the input, or zero if there is no such lane. -/
theorem shift_spec (P : PEnv) (zero : α) (junk : Nat → Outcome α) (v : List α) (hp : Plain P 0 v) (o : Int)
    (ho : -2 ^ 31 ≤ o) (ho' : o + v.length ≤ 2 ^ 31) :
    ∃ r, simdPermute P zero junk [] 0 (shift o) none v = .ok r ∧ r.length = v.length ∧
      ∀ i : Nat, i < v.length → r[i]? = some (if 0 ≤ i + o then v.getD (i + o).toNat zero else zero) := by
  have hs := hp.small
  rw [simdPermute_eq_generic P zero junk 0 _ none v hp (Or.inl rfl), if_pos rfl]
  refine ⟨(List.range v.length).map fun i : Nat => if 0 ≤ (i : Int) + o then v.getD (i + o).toNat zero else zero,
    gen_eq _ _ _ (fun i hi => ?_), by simp, fun i hi => by simp [hi]⟩
  have hj : shift o i v.length = .ok (if 0 ≤ (i : Int) + o ∧ (i : Int) + o < v.length then i + o else permuteZero) := by
    rw [shift, cint_eq (by omega), Outcome.bind_ok]
    by_cases h1 : o ≥ 0
    · rw [if_pos h1]
      congr 1
      by_cases h2 : (i : Int) + o ≥ v.length
      · rw [if_pos h2, if_neg (by omega)]
      · rw [if_neg h2, if_pos (by omega)]
    · rw [if_neg h1]
      congr 1
      by_cases h2 : (i : Int) + o < 0
      · rw [if_pos h2, if_neg (by omega)]
      · rw [if_neg h2, if_pos (by omega)]
  refine genericLane_picks hs hj ?_
  by_cases h1 : 0 ≤ (i : Int) + o
  · rw [if_pos h1]
    by_cases h2 : (i : Int) + o < v.length
    · rw [if_pos ⟨h1, h2⟩]
      refine Or.inr (Or.inl ⟨h1, ?_⟩)
      rw [List.getD_eq_getElem?_getD, List.getElem?_eq_getElem (by omega)]; rfl
    · rw [if_neg (by omega)]
      refine Or.inl ⟨rfl, ?_⟩
      rw [List.getD_eq_getElem?_getD, List.getElem?_eq_none (by omega)]; rfl
  · rw [if_neg h1, if_neg (by omega)]
    exact Or.inl ⟨rfl, rfl⟩

theorem flatten_getElem? {w : Nat} (hw : 0 < w) {L : List (List α)} (hL : ∀ x ∈ L, x.length = w) (j : Nat) :
    L.flatten[j]? = (L[j / w]?).bind (·[j % w]?) := by
  induction L generalizing j with
  | nil => simp
  | cons x L ih =>
    have hx := hL x (by simp)
    rw [List.flatten_cons]
    by_cases hj : j < w
    · rw [List.getElem?_append_left (by omega), Nat.div_eq_of_lt hj, Nat.mod_eq_of_lt hj]
      rfl
    · rw [List.getElem?_append_right (by omega), ih (fun y hy => hL y (by simp [hy])), hx]
      have h1 : j / w = (j - w) / w + 1 := by
        rw [Nat.div_eq_sub_div hw (by omega)]
      have h2 : j % w = (j - w) % w := by
        rw [Nat.mod_eq_sub_mod (by omega)]
      rw [h1, h2, List.getElem?_cons_succ]

/-- **C26, simd_shift_in, every offset.** With `j = i + O`: for `j >= 0` lane `i` is element `j` of the concatenation of the
inputs, zero past its end; for `-size <= j < 0` it is lane `size + j` of the first input; else zero. -/
theorem simdShiftIn_lanes (zero : α) (o : Int) (a : List α) (more : List (List α)) (h0 : 0 < a.length)
    (hm : ∀ x ∈ more, x.length = a.length) (hs : a.length * (1 + more.length) < 2 ^ 31) (ho : -2 ^ 31 ≤ o)
    (ho' : o + a.length ≤ 2 ^ 31) :
    ∃ r, simdShiftIn zero o a more = .ok r ∧ r.length = a.length ∧ ∀ i : Nat, i < a.length →
      r[i]? = some (if 0 ≤ i + o then (a :: more).flatten.getD (i + o).toNat zero
        else if -(a.length : Int) ≤ i + o then a.getD (a.length + (i + o)).toNat zero else zero) := by
  refine ⟨(List.range a.length).map fun i : Nat => (if 0 ≤ (i : Int) + o then (a :: more).flatten.getD (i + o).toNat zero
        else if -(a.length : Int) ≤ i + o then a.getD (a.length + (i + o)).toNat zero else zero),
    gen_eq _ _ _ (fun i hi => ?_), by simp, fun i hi => by simp [hi]⟩
  have hsz : (a :: more).flatten.length = a.length * (1 + more.length) := by
    rw [List.length_flatten]
    have : (a :: more).map List.length = List.replicate (1 + more.length) a.length := by
      rw [List.eq_replicate_iff]
      refine ⟨by simp; omega, fun b hb => ?_⟩
      obtain ⟨x, hx, rfl⟩ := List.mem_map.1 hb
      rcases List.mem_cons.1 hx with rfl | hx
      · rfl
      · exact hm x hx
    rw [this, List.sum_replicate_nat, Nat.mul_comm]
  have hcast : (a.length : Int) * (1 + (more.length : Int)) = ((a.length * (1 + more.length) : Nat) : Int) := by
    simp
  have hwle : a.length ≤ a.length * (1 + more.length) := Nat.le_mul_of_pos_right _ (by omega)
  simp only
  rw [Int.add_comm o, cint_eq (by omega), Outcome.bind_ok, hcast, cint_eq (by omega), Outcome.bind_ok]
  by_cases h1 : (i : Int) + o ≥ ((a.length * (1 + more.length) : Nat) : Int)
  · rw [if_pos h1, if_pos (by omega), List.getD_eq_getElem?_getD, List.getElem?_eq_none (by omega)]; rfl
  rw [if_neg h1]
  by_cases h2 : (i : Int) + o ≥ 0
  · rw [if_pos h2, if_pos h2]
    generalize hj : (i : Int) + o = j at *
    lift j to Nat using h2
    have hjl : j < a.length * (1 + more.length) := by omega
    have hq : j / a.length < (a :: more).length := by
      rw [Nat.div_lt_iff_lt_mul h0, List.length_cons, Nat.mul_comm, Nat.add_comm]; omega
    have hmem := List.getElem_mem hq
    have hlen : ((a :: more)[j / a.length]).length = a.length := by
      rcases List.mem_cons.1 hmem with h | h
      · rw [h]
      · exact hm _ h
    have hmod := Nat.mod_lt j h0
    have e1 : ((j : Int).tdiv a.length).toNat = j / a.length := by
      rw [← Int.ofNat_tdiv]; rfl
    have e2 : toU64 ((j : Int).tmod a.length) = j % a.length := by
      rw [← Int.ofNat_tmod, toU64_nonneg (by omega) (by omega)]; rfl
    rw [e1, rd_eq hq, Outcome.bind_ok, e2, at'_eq (by omega), List.getD_eq_getElem?_getD, Int.toNat_natCast,
      flatten_getElem? h0 (L := a :: more) (fun x hx => by
        rcases List.mem_cons.1 hx with rfl | hx
        · rfl
        · exact hm x hx), List.getElem?_eq_getElem hq]
    simp only [Option.bind_some]
    rw [List.getElem?_eq_getElem (by omega)]
    rfl
  · rw [if_neg h2, if_neg h2]
    by_cases h3 : (i : Int) + o < -(a.length : Int)
    · rw [if_pos h3, if_neg (by omega)]
    · rw [if_neg h3, if_pos (by omega), toU64_nonneg (by omega) (by omega), at'_eq (by omega), List.getD_eq_getElem?_getD,
        List.getElem?_eq_getElem (by omega)]
      rfl

/-- **C26, simd_shift_in.** For `O >= 0` the result is the concatenation of the inputs without its first `O` elements, filled up with
zeros and cut to the width of one input. (Partial: for negative offsets see `simdShiftIn_negative`.) -/
theorem simdShiftIn_spec_partial (zero : α) (o : Nat) (a : List α) (more : List (List α)) (h0 : 0 < a.length)
    (hm : ∀ x ∈ more, x.length = a.length) (hs : a.length * (1 + more.length) < 2 ^ 31) (ho' : o + a.length ≤ 2 ^ 31) :
    simdShiftIn zero o a more =
      .ok (((a :: more).flatten.drop o ++ List.replicate a.length zero).take a.length) := by
  obtain ⟨r, h1, h2, h3⟩ := simdShiftIn_lanes zero (o : Int) a more h0 hm hs (by omega) (by omega)
  rw [h1]
  congr 1
  refine List.ext_getElem? fun i => ?_
  by_cases hi : i < a.length
  · rw [h3 i hi, if_pos (by omega), List.getElem?_take, if_pos hi, List.getD_eq_getElem?_getD]
    have e : ((i : Int) + (o : Int)).toNat = o + i := by omega
    rw [e]
    by_cases hl : o + i < (a :: more).flatten.length
    · rw [List.getElem?_append_left (by rw [List.length_drop]; omega), List.getElem?_drop, List.getElem?_eq_getElem hl]
      rfl
    · rw [List.getElem?_append_right (by rw [List.length_drop]; omega), List.getElem?_replicate, if_pos (by
        rw [List.length_drop]; omega), List.getElem?_eq_none (by omega)]
      rfl
  · rw [List.getElem?_eq_none (by omega), List.getElem?_eq_none (by rw [List.length_take]; omega)]

/-- **C26 (false for negative offsets).** Shifting the concatenation by `-1` would give a zero in the first lane; the code
gives the last lane of the first input. -/
theorem simdShiftIn_negative :
    simdShiftIn 0 (-1) [1, 2, 3, 4] [[5, 6, 7, 8]] = .ok [4, 1, 2, 3] := by decide +kernel

/-! ## Non-vacuity -/

example : Plain (α := Nat) ⟨false, true, true, true, true, true, 4, 32, 8⟩ 0 (List.range 8) :=
  ⟨by decide, by decide, by decide, by decide⟩
example : GoodRotation ⟨false, true, true, true, true, true, 4, 32, 8⟩ 0 (rotate 6) (some 6) :=
  Or.inr ⟨6, rfl, rfl, Or.inr (Or.inr (Or.inr ⟨by decide, by decide, Or.inl rfl⟩))⟩
-- the shufflevector implementation with a wider result, a negative index and a zero
example : simdPermute ⟨false, false, true, true, true, true, 4, 16, 4⟩ 0 (fun _ => .ub .uninit) [] 4
    (fun i _ => .ok (if i = 3 then permuteZero else -1 - i)) none [5, 6, 7, 8] = .ok [8, 7, 6, 0] := by decide +kernel
example : simdPermute ⟨true, false, true, true, true, true, 4, 24, 4⟩ 0 (fun _ => .ub .uninit) [] 0 (swapNeighbors 3) none
    [0, 1, 2, 3, 4, 5] = .ok [3, 4, 5, 0, 1, 2] := by decide +kernel
example : Plain (α := Nat) ⟨true, false, true, true, true, true, 4, 24, 4⟩ 0 (List.range 6) :=
  ⟨by decide, by decide, by decide, by decide⟩
example : simdShiftIn 0 3 [1, 2, 3, 4] [[5, 6, 7, 8]] = .ok [4, 5, 6, 7] := by decide +kernel

/-- **C22 (special indices).** The two special results of an index function are different values of `int`, and neither is an index into
a simd of any size that the theorems allow. -/
theorem special_indices (n : Nat) (hn : n < 2 ^ 31 - 2) :
    permuteZero ≠ permuteUninit ∧ cint permuteZero = .ok permuteZero ∧ cint permuteUninit = .ok permuteUninit ∧
    ¬ (-(n : Int) ≤ permuteZero ∧ permuteZero < n) ∧ ¬ (-(n : Int) ≤ permuteUninit ∧ permuteUninit < n) := by
  refine ⟨by decide, by decide, by decide, ?_, ?_⟩ <;> simp only [permuteUninit, permuteZero] <;> omega

/-! ## The theorems applied to concrete data -/

private def floats8 : PEnv := ⟨false, true, true, true, true, true, 4, 32, 8⟩
private theorem floats8_plain : Plain (α := Nat) floats8 0 (List.range 8) := ⟨by decide, by decide, by decide, by decide⟩
private def ints4 : PEnv := ⟨false, false, true, false, true, true, 4, 16, 4⟩
private theorem ints4_plain : Plain (α := Nat) ints4 0 [5, 6, 7, 8] := ⟨by decide, by decide, by decide, by decide⟩
private def ints3 : PEnv := ⟨false, false, true, false, true, true, 4, 12, 4⟩
private theorem ints3_plain : Plain (α := Nat) ints3 0 [10, 20, 30] := ⟨by decide, by decide, by decide, by decide⟩
private def junk0 : Nat → Outcome Nat := fun _ => .ub .uninit

example := simdPermute_eq_generic floats8 0 junk0 0 (rotate 6) (some 6) _ floats8_plain
  (Or.inr ⟨6, rfl, rfl, Or.inr (Or.inr (Or.inr ⟨by decide, by decide, Or.inl rfl⟩))⟩)
example := simdPermute_spec_partial ints4 0 junk0 0 (fun i _ => .ok (if i = 3 then permuteZero else -1 - i)) none _ ints4_plain (Or.inl rfl) (by
  intro i hi
  have hi : i < 4 := hi
  unfold Picks
  obtain rfl | rfl | rfl | rfl : i = 0 ∨ i = 1 ∨ i = 2 ∨ i = 3 := by omega
  exacts [⟨-1, 8, rfl, by decide⟩, ⟨-2, 7, rfl, by decide⟩, ⟨-3, 6, rfl, by decide⟩, ⟨permuteZero, 0, rfl, by decide⟩])
example := simdPermute_rejects ints4 0 junk0 0 (fun i _ => .ok (i + 1)) none _ ints4_plain (Or.inl rfl)
  (fun i hi => ⟨_, rfl, by have hi : i < 4 := hi; have : 100 < permuteUninit := by decide
                           omega⟩) (i := 3) (j := 4) (by decide) rfl (by decide)
example := simdPermute_padding_partial ints4 0 junk0 [1, 2, 3] 0 (fun i _ => .ok (-1 - i)) [5, 6, 7, 8] (by decide) (by decide) rfl
  (fun i _ => by simp [permuteZero]; omega)
example := simdPermuteScalar_spec (n := 1) (by decide) ⟨false, false, true, false, true, true, 4, 4, 4⟩ ints3 0 junk0 (rotate 3) 7
  ⟨by decide, by decide, by decide, by decide⟩
example := duplicateEven_spec ints3 0 junk0 _ ints3_plain
example := duplicateOdd_spec ints4 0 junk0 _ ints4_plain (by decide)
example := duplicateOdd_odd ints3 0 junk0 _ ints3_plain (by decide)
example := broadcast_spec ints4 0 junk0 _ ints4_plain (-2) (by decide) (by decide)
example := reverse_spec ints3 0 junk0 _ ints3_plain
example := reverse_involution ints3 0 junk0 _ ints3_plain
example := swapNeighbors_spec ints4 0 junk0 _ ints4_plain 2 (by decide) (by decide)
example := swapNeighbors_involution ints4 0 junk0 _ ints4_plain 1 (by decide) (by decide)
example := rotate_index_iff (o := -1) (size := 3) (by decide) (by decide) (by decide) (by decide)
example := rotate_spec_partial ints4 0 junk0 _ ints4_plain (-3) (by decide) (by decide) (Or.inr ⟨2, rfl⟩) (Or.inr (Or.inl rfl))
example := rotate_negative_wrong ints3 junk0 ints3_plain
example := rotate_rotate ints3 0 junk0 _ ints3_plain 2 2 (Or.inl (by decide)) rfl (by decide) (by decide)
example := rotate_undo ints4 0 junk0 _ ints4_plain 3 ⟨2, rfl⟩ rfl (by decide) (by decide)
example := avx_rotate_partial floats8 0 junk0 _ floats8_plain 6 (by decide)
example := avx_rotate_negative (List.range 8) (-2) (by decide) (Or.inl (by decide))
example := shift_spec ints4 0 junk0 _ ints4_plain (-3) (by decide) (by decide)
example := simdShiftIn_lanes 0 (-2) [1, 2, 3, 4] [[5, 6, 7, 8]] (by decide) (by decide) (by decide) (by decide) (by decide)
example := simdShiftIn_spec_partial 0 3 [1, 2, 3, 4] [[5, 6, 7, 8]] (by decide) (by decide) (by decide) (by decide)
example := special_indices 64 (by decide)

end Vir.Permute
