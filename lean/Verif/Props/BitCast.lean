import Verif.Lemmas.BitCast

/-!
# C45: bit operations on floating-point simd; C49: `simd_bit_cast`
-/

namespace Vir.Spec

/-- The object as one number: lane `i`, of `w` bytes, contributes its bit pattern shifted by `8 * w * i` bits. -/
def asNumber (w : Nat) : List Nat → Nat
  | [] => 0
  | x :: xs => x + 2 ^ (8 * w) * asNumber w xs

/-- All lanes are bit patterns of `w` bytes. -/
def Lanes (w : Nat) (v : List Nat) : Prop := ∀ x ∈ v, x < 2 ^ (8 * w)

/-- `r` is the lanewise result of `op` on the bit patterns of `a` and `b`. -/
def Bitwise (op : Bool → Bool → Bool) (a b r : List Nat) : Prop :=
  r.length = a.length ∧
    ∀ (i x y z : Nat), a[i]? = some x → b[i]? = some y → r[i]? = some z →
      ∀ bit : Nat, z.testBit bit = op (x.testBit bit) (y.testBit bit)

/-- Sign bit of a floating-point bit pattern of `w` bytes. -/
def signBit (w x : Nat) : Bool := x.testBit (8 * w - 1)

/-- Exponent and mantissa: all bits but the sign. -/
def magnitude (w x : Nat) : Nat := x % 2 ^ (8 * w - 1)

end Vir.Spec

namespace Vir.BitCast
open Spec Simd

private theorem pow_eq (w : Nat) : (256 : Nat) ^ w = 2 ^ (8 * w) := by
  rw [Nat.pow_mul]

private theorem objBytes_number (w : Nat) (v : List Nat) (h : Lanes w v) : laneOfBytes (objBytes w v) = asNumber w v := by
  induction v with
  | nil => rfl
  | cons x v ih =>
    have hv := ih fun y hy => h y (List.mem_cons_of_mem _ hy)
    have hx : x < 256 ^ w := by rw [pow_eq]; exact h x (List.mem_cons_self ..)
    rw [objBytes] at hv ⊢
    rw [List.flatMap_cons, laneOfBytes_append, hv, laneBytes_length, laneOfBytes_laneBytes w x hx, asNumber, pow_eq]

private theorem objOfBytes_number (w n : Nat) (bs : List Nat) (hl : bs.length = w * n) :
    asNumber w (objOfBytes w n bs) = laneOfBytes bs := by
  induction n generalizing bs with
  | zero =>
    have : bs = [] := List.length_eq_zero_iff.1 (by simpa using hl)
    subst this; rfl
  | succ n ih =>
    rw [Nat.mul_succ] at hl
    rw [objOfBytes, asNumber, ih _ (by simp; omega), ← pow_eq]
    conv => rhs; rw [← List.take_append_drop w bs, laneOfBytes_append]
    have : (bs.take w).length = w := by simp; omega
    rw [this]

private theorem asNumber_inj {w : Nat} {v v' : List Nat} (h : Lanes w v) (h' : Lanes w v') (hl : v.length = v'.length)
    (he : asNumber w v = asNumber w v') : v = v' := by
  induction v generalizing v' with
  | nil =>
    cases v' with
    | nil => rfl
    | cons _ _ => simp at hl
  | cons x v ih =>
    cases v' with
    | nil => simp at hl
    | cons x' v' =>
      have hx := h x (List.mem_cons_self ..)
      have hx' := h' x' (List.mem_cons_self ..)
      simp only [asNumber] at he
      have h1 := congrArg (· % 2 ^ (8 * w)) he
      have h2 := congrArg (· / 2 ^ (8 * w)) he
      have hp : 0 < 2 ^ (8 * w) := Nat.pow_pos (by decide)
      simp only [Nat.add_mul_mod_self_left, Nat.mod_eq_of_lt hx, Nat.mod_eq_of_lt hx'] at h1
      simp only [Nat.add_mul_div_left _ _ hp, Nat.div_eq_of_lt hx, Nat.div_eq_of_lt hx', Nat.zero_add] at h2
      rw [h1, ih (fun y hy => h y (List.mem_cons_of_mem _ hy)) (fun y hy => h' y (List.mem_cons_of_mem _ hy))
        (by simpa using hl) h2]

/-- **C49.** `simd_bit_cast` between simds of equal total size keeps all bits: bit `8 * w * i + j` of the object is bit
`j` of lane `i` before and after. -/
theorem bitCast_spec (w w' n' : Nat) (v : List Nat) (hv : Lanes w v) (hs : w' * n' = w * v.length) :
    ∃ r, bitCast w w' n' v = .ok r ∧ r.length = n' ∧ Lanes w' r ∧ asNumber w' r = asNumber w v := by
  refine ⟨_, by rw [bitCast, if_pos hs], objOfBytes_length _ _ _, fun x hx => ?_, ?_⟩
  · rw [← pow_eq]
    exact objOfBytes_lt _ _ _ (objBytes_lt w v) x hx
  · rw [objOfBytes_number _ _ _ (by rw [objBytes_length, hs]), objBytes_number w v hv]

/-- **C49.** The cast does not exist for different sizes. -/
theorem bitCast_size (w w' n' : Nat) (v : List Nat) (hs : w' * n' ≠ w * v.length) :
    bitCast w w' n' v = .ub .staticAssert := by
  rw [bitCast, if_neg hs]

/-- **C49.** Casting back restores the value. -/
theorem bitCast_round_trip (w w' n' : Nat) (v : List Nat) (hv : Lanes w v) (hs : w' * n' = w * v.length) :
    (do bitCast w' w v.length (← bitCast w w' n' v)) = .ok v := by
  obtain ⟨r, h1, h2, h3, h4⟩ := bitCast_spec w w' n' v hv hs
  obtain ⟨u, h5, h6, h7, h8⟩ := bitCast_spec w' w v.length r h3 (by rw [h2, hs])
  rw [h1, Outcome.bind_ok, h5, asNumber_inj h7 hv h6 (by rw [h8, h4])]

/-- **C49.** Casting to lanes of the same size changes nothing (`float` to `int`, say). -/
theorem bitCast_same (w : Nat) (v : List Nat) (hv : Lanes w v) : bitCast w w v.length v = .ok v :=
  bitCast_self w v fun x hx => by rw [pow_eq]; exact hv x hx

private theorem lanes_of {w : Nat} {v : List Nat} (h : Lanes w v) : ∀ x ∈ v, x < 256 ^ w := fun x hx => by
  rw [pow_eq]; exact h x hx

private theorem zip_bitwise {op : Nat → Nat → Nat} {bop : Bool → Bool → Bool} {a b : List Nat}
    (hl : b.length = a.length) (h : ∀ x y i, (op x y).testBit i = bop (x.testBit i) (y.testBit i)) :
    Bitwise bop a b (List.zipWith op a b) := by
  refine ⟨by simp [hl], fun i x y z hx hy hz bit => ?_⟩
  simp only [List.getElem?_zipWith, hx, hy, Option.some.injEq] at hz
  rw [← hz, h]

/-- **C45.** `a & b` on floating-point simd works bit by bit on every lane. -/
theorem floatAnd_spec (w : Nat) (a b : List Nat) (hl : b.length = a.length) (ha : Lanes w a) (hb : Lanes w b) :
    ∃ r, floatAnd w a b = .ok r ∧ Lanes w r ∧ Bitwise (· && ·) a b r := by
  have hop : ∀ x y, x < 256 ^ w → y < 256 ^ w → x &&& y < 256 ^ w :=
    fun x y hx _ => Nat.lt_of_le_of_lt Nat.and_le_left hx
  refine ⟨_, floatOp_eq hl (lanes_of ha) (lanes_of hb) hop, fun r hr => ?_, zip_bitwise hl fun x y i => Nat.testBit_and ..⟩
  obtain ⟨i, hi, hr⟩ := List.getElem_of_mem hr
  rw [List.getElem_zipWith] at hr
  rw [← hr, ← pow_eq]
  exact hop _ _ (lanes_of ha _ (List.getElem_mem _)) (lanes_of hb _ (List.getElem_mem _))

/-- **C45.** `a | b` on floating-point simd works bit by bit on every lane. -/
theorem floatOr_spec (w : Nat) (a b : List Nat) (hl : b.length = a.length) (ha : Lanes w a) (hb : Lanes w b) :
    ∃ r, floatOr w a b = .ok r ∧ Lanes w r ∧ Bitwise (· || ·) a b r := by
  have hop : ∀ x y, x < 256 ^ w → y < 256 ^ w → x ||| y < 256 ^ w := fun x y hx hy => by
    rw [pow_eq] at *; exact Nat.or_lt_two_pow hx hy
  refine ⟨_, floatOp_eq hl (lanes_of ha) (lanes_of hb) hop, fun r hr => ?_, zip_bitwise hl fun x y i => Nat.testBit_or ..⟩
  obtain ⟨i, hi, hr⟩ := List.getElem_of_mem hr
  rw [List.getElem_zipWith] at hr
  rw [← hr, ← pow_eq]
  exact hop _ _ (lanes_of ha _ (List.getElem_mem _)) (lanes_of hb _ (List.getElem_mem _))

/-- **C45.** `a ^ b` on floating-point simd works bit by bit on every lane. -/
theorem floatXor_spec (w : Nat) (a b : List Nat) (hl : b.length = a.length) (ha : Lanes w a) (hb : Lanes w b) :
    ∃ r, floatXor w a b = .ok r ∧ Lanes w r ∧ Bitwise (· ^^ ·) a b r := by
  have hop : ∀ x y, x < 256 ^ w → y < 256 ^ w → x ^^^ y < 256 ^ w := fun x y hx hy => by
    rw [pow_eq] at *; exact Nat.xor_lt_two_pow hx hy
  refine ⟨_, floatOp_eq hl (lanes_of ha) (lanes_of hb) hop, fun r hr => ?_, zip_bitwise hl fun x y i => Nat.testBit_xor ..⟩
  obtain ⟨i, hi, hr⟩ := List.getElem_of_mem hr
  rw [List.getElem_zipWith] at hr
  rw [← hr, ← pow_eq]
  exact hop _ _ (lanes_of ha _ (List.getElem_mem _)) (lanes_of hb _ (List.getElem_mem _))

private theorem ext_bits {a b : List Nat} (hl : b.length = a.length)
    (h : ∀ (i x y : Nat), a[i]? = some x → b[i]? = some y → ∀ bit, y.testBit bit = x.testBit bit) : b = a :=
  List.ext_getElem hl fun i h1 h2 =>
    Nat.eq_of_testBit_eq (h i _ _ (List.getElem?_eq_getElem h2) (List.getElem?_eq_getElem h1))

/-- **C45.** `(a ^ b) ^ b == a`, `a & a == a` and `a | a == a`, bit for bit. -/
theorem float_op_laws (w : Nat) (a b : List Nat) (hl : b.length = a.length) (ha : Lanes w a) (hb : Lanes w b) :
    (do floatXor w (← floatXor w a b) b) = .ok a ∧ floatAnd w a a = .ok a ∧ floatOr w a a = .ok a := by
  refine ⟨?_, ?_, ?_⟩
  · obtain ⟨r, h1, h2, h3, h4⟩ := floatXor_spec w a b hl ha hb
    obtain ⟨s, h5, h6, h7, h8⟩ := floatXor_spec w r b (by omega) h2 hb
    rw [h1, Outcome.bind_ok, h5]
    congr 1
    refine ext_bits (by omega) fun i x y hx hy bit => ?_
    have hi := (List.getElem?_eq_some_iff.1 hx).1
    have hr : r[i]? = some (r[i]'(by omega)) := List.getElem?_eq_getElem (by omega)
    have hbi : b[i]? = some (b[i]'(by omega)) := List.getElem?_eq_getElem (by omega)
    rw [h8 i _ _ y hr hbi hy bit, h4 i x _ _ hx hbi hr bit]
    cases x.testBit bit <;> simp
  · obtain ⟨r, h1, h2, h3, h4⟩ := floatAnd_spec w a a rfl ha ha
    rw [h1]; congr 1
    exact ext_bits h3 fun i x y hx hy bit => by simp [h4 i x x y hx hx hy bit]
  · obtain ⟨r, h1, h2, h3, h4⟩ := floatOr_spec w a a rfl ha ha
    rw [h1]; congr 1
    exact ext_bits h3 fun i x y hx hy bit => by simp [h4 i x x y hx hx hy bit]

/-- The simd with the sign bit set in all lanes (`-0.`) and its complement. -/
def signs (w n : Nat) : List Nat := List.replicate n (2 ^ (8 * w - 1))
@[inherit_doc signs] def noSigns (w n : Nat) : List Nat := List.replicate n (2 ^ (8 * w - 1) - 1)

private theorem lanes_signs {w : Nat} (hw : 0 < w) (n : Nat) : Lanes w (signs w n) ∧ Lanes w (noSigns w n) := by
  have h1 : 2 ^ (8 * w - 1) < 2 ^ (8 * w) := Nat.pow_lt_pow_right (by decide) (by omega)
  refine ⟨fun x hx => ?_, fun x hx => ?_⟩
  · rw [List.eq_of_mem_replicate hx]; exact h1
  · rw [List.eq_of_mem_replicate hx]; exact Nat.lt_of_le_of_lt (Nat.sub_le ..) h1

private theorem testBit_magnitude (w x i : Nat) :
    (magnitude w x).testBit i = (decide (i < 8 * w - 1) && x.testBit i) := by
  rw [magnitude, Nat.testBit_mod_two_pow]

/-- **C45.** Masking away the sign bit computes the absolute value: the sign becomes positive, all other bits stay. -/
theorem float_abs (w : Nat) (hw : 0 < w) (a : List Nat) (ha : Lanes w a) :
    ∃ r, floatAnd w a (noSigns w a.length) = .ok r ∧ r.length = a.length ∧
      ∀ (i x z : Nat), a[i]? = some x → r[i]? = some z → signBit w z = false ∧ magnitude w z = magnitude w x := by
  obtain ⟨r, h1, h2, h3, h4⟩ := floatAnd_spec w a (noSigns w a.length) (by simp [noSigns]) ha (lanes_signs hw _).2
  refine ⟨r, h1, h3, fun i x z hx hz => ?_⟩
  have hi := (List.getElem?_eq_some_iff.1 hx).1
  have hb := h4 i x _ z hx (show (noSigns w a.length)[i]? = some (2 ^ (8 * w - 1) - 1) by simp [noSigns, hi]) hz
  simp only [Nat.testBit_two_pow_sub_one] at hb
  refine ⟨by rw [signBit, hb]; simp, Nat.eq_of_testBit_eq fun j => ?_⟩
  rw [testBit_magnitude, testBit_magnitude, hb]
  by_cases hj : j < 8 * w - 1 <;> simp [hj]

/-- **C45.** Flipping the sign bit negates: the sign changes, all other bits stay. -/
theorem float_negate (w : Nat) (hw : 0 < w) (a : List Nat) (ha : Lanes w a) :
    ∃ r, floatXor w a (signs w a.length) = .ok r ∧ r.length = a.length ∧
      ∀ (i x z : Nat), a[i]? = some x → r[i]? = some z → signBit w z = !signBit w x ∧ magnitude w z = magnitude w x := by
  obtain ⟨r, h1, h2, h3, h4⟩ := floatXor_spec w a (signs w a.length) (by simp [signs]) ha (lanes_signs hw _).1
  refine ⟨r, h1, h3, fun i x z hx hz => ?_⟩
  have hi := (List.getElem?_eq_some_iff.1 hx).1
  have hb := h4 i x _ z hx (show (signs w a.length)[i]? = some (2 ^ (8 * w - 1)) by simp [signs, hi]) hz
  simp only [Nat.testBit_two_pow] at hb
  refine ⟨by rw [signBit, hb, signBit]; simp, Nat.eq_of_testBit_eq fun j => ?_⟩
  rw [testBit_magnitude, testBit_magnitude, hb]
  by_cases hj : j < 8 * w - 1
  · have : ¬ 8 * w - 1 = j := by omega
    simp [hj, this]
  · simp [hj]

/-- **C45.** `(a & ~sign) | (b & sign)` computes `copysign(a, b)`. -/
theorem float_copysign (w : Nat) (hw : 0 < w) (a b : List Nat) (hl : b.length = a.length) (ha : Lanes w a)
    (hb : Lanes w b) :
    ∃ r, (do
        let m ← floatAnd w a (noSigns w a.length)
        let s ← floatAnd w b (signs w a.length)
        floatOr w m s) = .ok r ∧ r.length = a.length ∧
      ∀ (i x y z : Nat), a[i]? = some x → b[i]? = some y → r[i]? = some z →
        signBit w z = signBit w y ∧ magnitude w z = magnitude w x := by
  obtain ⟨m, h1, h2, h3, h4⟩ := floatAnd_spec w a (noSigns w a.length) (by simp [noSigns]) ha (lanes_signs hw _).2
  obtain ⟨s, h5, h6, h7, h8⟩ := floatAnd_spec w b (signs w a.length) (by simp [signs, hl]) hb (lanes_signs hw _).1
  obtain ⟨r, h9, h10, h11, h12⟩ := floatOr_spec w m s (by omega) h2 h6
  refine ⟨r, by rw [h1, Outcome.bind_ok, h5, Outcome.bind_ok, h9], by omega, fun i x y z hx hy hz => ?_⟩
  have hi := (List.getElem?_eq_some_iff.1 hx).1
  have hm : m[i]? = some (m[i]'(by omega)) := List.getElem?_eq_getElem (by omega)
  have hs : s[i]? = some (s[i]'(by omega)) := List.getElem?_eq_getElem (by omega)
  have hbit : ∀ j, z.testBit j =
      (x.testBit j && decide (j < 8 * w - 1) || y.testBit j && decide (8 * w - 1 = j)) := fun j => by
    rw [h12 i _ _ z hm hs hz j,
      h4 i x _ _ hx (show (noSigns w a.length)[i]? = some (2 ^ (8 * w - 1) - 1) by simp [noSigns, hi]) hm j,
      h8 i y _ _ hy (show (signs w a.length)[i]? = some (2 ^ (8 * w - 1)) by simp [signs, hi]) hs j,
      Nat.testBit_two_pow_sub_one, Nat.testBit_two_pow]
  refine ⟨by rw [signBit, hbit, signBit]; simp, Nat.eq_of_testBit_eq fun j => ?_⟩
  rw [testBit_magnitude, testBit_magnitude, hbit]
  by_cases hj : j < 8 * w - 1
  · have : ¬ 8 * w - 1 = j := by omega
    simp [hj, this]
  · simp [hj]

/-! ### the theorems are about something -/

example : bitCast 4 8 1 [0x89abcdef, 0x01234567] = .ok [0x0123456789abcdef] := by decide
example : bitCast 4 2 4 [0x89abcdef, 0x01234567] = .ok [0xcdef, 0x89ab, 0x4567, 0x0123] := by decide
example : Lanes 4 [0x89abcdef, 0x01234567] ∧ 8 * 1 = 4 * [0x89abcdef, 0x01234567].length := by unfold Lanes; decide
/-- |-1.5f| = 1.5f on both paths (4 bytes, and a 16-byte type). -/
example : floatAnd 4 [0xbfc00000] (noSigns 4 1) = .ok [0x3fc00000] ∧
    floatAnd 16 [2 ^ 127 + 5, 7] (noSigns 16 2) = .ok [5, 7] := by decide +kernel
example : floatXor 4 [0x3fc00000] (signs 4 1) = .ok [0xbfc00000] := by decide

/-! ## The theorems applied to concrete data -/

private theorem lanesOk : Lanes 4 [0xbfc00000, 0x7f800000] ∧ Lanes 4 [0x80000000, 5] := by unfold Lanes; decide

example := bitCast_spec 4 8 1 [0xbfc00000, 0x7f800000] lanesOk.1 rfl
example := bitCast_size 4 8 2 [0xbfc00000, 0x7f800000] (by decide)
example := bitCast_round_trip 4 8 1 [0xbfc00000, 0x7f800000] lanesOk.1 rfl
example := bitCast_same 4 [0xbfc00000, 0x7f800000] lanesOk.1
example := floatAnd_spec 4 [0xbfc00000, 0x7f800000] [0x80000000, 5] rfl lanesOk.1 lanesOk.2
example := floatOr_spec 4 [0xbfc00000, 0x7f800000] [0x80000000, 5] rfl lanesOk.1 lanesOk.2
example := floatXor_spec 4 [0xbfc00000, 0x7f800000] [0x80000000, 5] rfl lanesOk.1 lanesOk.2
example := float_op_laws 4 [0xbfc00000, 0x7f800000] [0x80000000, 5] rfl lanesOk.1 lanesOk.2
example := float_abs 4 (by decide) [0xbfc00000, 0x7f800000] lanesOk.1
example := float_negate 4 (by decide) [0xbfc00000, 0x7f800000] lanesOk.1
example := float_copysign 4 (by decide) [0xbfc00000, 0x7f800000] [0x80000000, 5] rfl lanesOk.1 lanesOk.2

end Vir.BitCast
