import Verif.Model.Literal

/-!
# C42: integer literals `_cw`
-/

namespace Vir.Spec
open Literal

/-- Digits and what they are worth. -/
def digitValue (c : Char) : Nat :=
  if '0' ≤ c ∧ c ≤ '9' then c.toNat - '0'.toNat
  else if 'a' ≤ c ∧ c ≤ 'f' then c.toNat - 'a'.toNat + 10
  else c.toNat - 'A'.toNat + 10

/-- A digit of the base (2, 8, 10 or 16). -/
def IsDigit (base : Nat) (c : Char) : Prop :=
  ('0' ≤ c ∧ c ≤ '9' ∨ base = 16 ∧ ('a' ≤ c ∧ c ≤ 'f' ∨ 'A' ≤ c ∧ c ≤ 'F')) ∧ digitValue c < base

/-- The number denoted by a sequence of digits. -/
def numeral (base : Nat) (ds : List Char) : Nat := ds.foldl (fun x c => x * base + digitValue c) 0

/-- `chars` without digit separators is an integer literal ([lex.icon]) with the given value: decimal literals start with a
nonzero digit, octal literals with `0`, hexadecimal and binary ones with their prefix and at least one digit. -/
inductive IntLiteral : List Char → Nat → Prop
  | dec (ds : List Char) : ds ≠ [] → (∀ c ∈ ds, IsDigit 10 c) → ds.head? ≠ some '0' → IntLiteral ds (numeral 10 ds)
  | oct (ds : List Char) : (∀ c ∈ ds, IsDigit 8 c) → IntLiteral ('0' :: ds) (numeral 8 ds)
  | hex (x : Char) (ds : List Char) : x = 'x' ∨ x = 'X' → ds ≠ [] → (∀ c ∈ ds, IsDigit 16 c) →
      IntLiteral ('0' :: x :: ds) (numeral 16 ds)
  | bin (ds : List Char) : ds ≠ [] → (∀ c ∈ ds, IsDigit 2 c) → IntLiteral ('0' :: 'b' :: ds) (numeral 2 ds)

/-- The largest value of the type. -/
def limit (longBits : Nat) : LitTy → Nat
  | .schar => 2 ^ 7 - 1
  | .short => 2 ^ 15 - 1
  | .int => 2 ^ 31 - 1
  | .long => 2 ^ (longBits - 1) - 1
  | .llong => 2 ^ 63 - 1
  | .ullong => 2 ^ 64 - 1

/-- The types in the order in which they are tried. -/
def rank : LitTy → Nat
  | .schar => 0 | .short => 1 | .int => 2 | .long => 3 | .llong => 4 | .ullong => 5

/-- `t` is the first type that holds `x`. -/
def IsSmallest (longBits : Nat) (x : Nat) (t : LitTy) : Prop :=
  x ≤ limit longBits t ∧ ∀ u : LitTy, x ≤ limit longBits u → rank t ≤ rank u

end Vir.Spec

namespace Vir.Literal
open Spec

private theorem char_le {a b : Char} : a ≤ b ↔ a.toNat ≤ b.toNat := by
  show a.val ≤ b.val ↔ _
  exact UInt32.le_iff_toNat_le

private theorem codes : ('0'.toNat = 48 ∧ '9'.toNat = 57) ∧ ('a'.toNat = 97 ∧ 'f'.toNat = 102) ∧
    ('A'.toNat = 65 ∧ 'F'.toNat = 70) := by decide

private theorem isDigit_iff (base : Nat) (hb : base = 2 ∨ base = 8 ∨ base = 10 ∨ base = 16) (c : Char) :
    IsDigit base c ↔ validChar base c = true := by
  obtain ⟨⟨h0, h9⟩, ⟨ha, hf⟩, hA, hF⟩ := codes
  simp only [IsDigit, digitValue, validChar, char_le, h0, h9, ha, hf, hA, hF]
  rcases hb with rfl | rfl | rfl | rfl
  · simp only [Nat.reduceEqDiff, if_false, Bool.and_eq_true, decide_eq_true_eq, false_and, or_false]
    constructor
    · rintro ⟨h1, h2⟩; rw [if_pos h1] at h2; omega
    · rintro ⟨h1, h2⟩; refine ⟨by omega, ?_⟩; rw [if_pos (by omega)]; omega
  · simp only [Nat.reduceEqDiff, if_false, Bool.and_eq_true, decide_eq_true_eq, false_and, or_false]
    constructor
    · rintro ⟨h1, h2⟩; rw [if_pos h1] at h2; omega
    · rintro ⟨h1, h2⟩; refine ⟨by omega, ?_⟩; rw [if_pos (by omega)]; omega
  · simp only [Nat.reduceEqDiff, if_false, Bool.and_eq_true, decide_eq_true_eq, false_and, or_false]
    constructor
    · rintro ⟨h1, h2⟩; omega
    · rintro ⟨h1, h2⟩; refine ⟨by omega, ?_⟩; rw [if_pos (by omega)]; omega
  · simp only [if_true, Bool.or_eq_true, Bool.and_eq_true, decide_eq_true_eq, true_and]
    constructor
    · rintro ⟨h1, h2⟩; omega
    · intro h; refine ⟨by omega, ?_⟩; split; omega; split <;> omega

private theorem nextDigit_eq (base : Nat) (c : Char)
    (h : IsDigit base c) : nextDigit base c = digitValue c ∧ digitValue c < base := by
  refine ⟨?_, h.2⟩
  obtain ⟨⟨h0, h9⟩, ⟨ha, hf⟩, hA, hF⟩ := codes
  obtain ⟨h1, h2⟩ := h
  simp only [digitValue, nextDigit, char_le, h0, h9, ha, hf, hA, hF] at *
  by_cases hd : 48 ≤ c.toNat ∧ c.toNat ≤ 57
  · rw [if_pos hd]
    split
    · rw [if_neg (by omega), if_neg (by omega)]
    · rfl
  · have h16 : base = 16 := by omega
    rw [if_neg hd, if_pos h16]
    by_cases hl : 97 ≤ c.toNat ∧ c.toNat ≤ 102
    · rw [if_pos hl, if_pos (by omega)]
    · rw [if_neg hl, if_neg (by omega), if_pos (by omega)]

private theorem numeral_mono (base : Nat) (hb : 0 < base) (ds : List Char) (x : Nat) :
    x ≤ ds.foldl (fun x c => x * base + digitValue c) x := by
  induction ds generalizing x with
  | nil => exact Nat.le_refl _
  | cons c cs ih =>
    refine Nat.le_trans ?_ (ih _)
    have : x * 1 ≤ x * base := Nat.mul_le_mul_left _ hb
    show x ≤ x * base + digitValue c
    omega

private theorem accumulate_eq (base : Nat) (hb : base = 2 ∨ base = 8 ∨ base = 10 ∨ base = 16) (ds : List Char) (x : Nat)
    (hds : ∀ c ∈ ds, IsDigit base c) :
    accumulate base ds x =
      if ds.foldl (fun x c => x * base + digitValue c) x ≤ ullMax ∨ ds = [] then
        ds.foldl (fun x c => x * base + digitValue c) x else 0 := by
  induction ds generalizing x with
  | nil => simp [accumulate]
  | cons c cs ih =>
    obtain ⟨hn, hlt⟩ := nextDigit_eq base c (hds c (List.mem_cons_self ..))
    have hpos : 0 < base := by omega
    have hmono := numeral_mono base hpos cs (x * base + digitValue c)
    simp only [accumulate, List.foldl_cons, hn, reduceCtorEq, or_false]
    have hdv : digitValue c ≤ ullMax := by unfold ullMax; omega
    by_cases h1 : x > ullMax / base
    · rw [if_pos h1]
      have : ullMax < x * base := (Nat.div_lt_iff_lt_mul hpos).1 h1
      rw [if_neg (by omega)]
    · rw [if_neg h1]
      have hle : x * base ≤ ullMax := by
        have := Nat.mul_le_mul_right base (Nat.not_lt.1 h1)
        exact Nat.le_trans this (Nat.div_mul_le_self _ _)
      by_cases h2 : x * base > ullMax - digitValue c
      · rw [if_pos h2, if_neg (by omega)]
      · rw [if_neg h2, ih _ fun c hc => hds c (List.mem_cons_of_mem _ hc)]
        by_cases hcs : cs = []
        · subst hcs
          have : x * base + digitValue c ≤ ullMax := by omega
          simp [this]
        · simp only [hcs, or_false]

/-- **C42.** The choice of the type is the first type that holds the value. -/
theorem typeOf_smallest (longBits : Nat) (x : Nat) (hx : x < 2 ^ 64) : IsSmallest longBits x (typeOf longBits x) := by
  unfold typeOf IsSmallest
  split
  · exact ⟨by assumption, fun u _ => by simp [rank]⟩
  · split
    · exact ⟨by assumption, fun u hu => by cases u <;> simp [rank, limit] at * <;> omega⟩
    · split
      · exact ⟨by assumption, fun u hu => by cases u <;> simp [rank, limit] at * <;> omega⟩
      · split
        · exact ⟨by assumption, fun u hu => by cases u <;> simp [rank, limit] at * <;> omega⟩
        · split
          · exact ⟨by assumption, fun u hu => by cases u <;> simp [rank, limit] at * <;> omega⟩
          · exact ⟨by simp [limit]; omega, fun u hu => by cases u <;> simp [rank, limit] at * <;> omega⟩

/-- The part of `parse` after the base has been found. -/
private theorem parse_of (longBits : Nat) (chars arr : List Char) (hp : prepare chars = arr) (base : Nat)
    (hb : base = 2 ∨ base = 8 ∨ base = 10 ∨ base = 16) (hbase : baseOf arr = base) (ds : List Char)
    (hds : arr.drop (offsetOf base) = ds) (hne : ds ≠ []) (hdig : ∀ c ∈ ds, IsDigit base c) (v : Nat)
    (hv : numeral base ds = v) (hsmall : arr = ['0'] ∨ arr = ['1'] ∨ arr = ['2'] → numeral base ds = numeral 10 arr) :
    parse longBits chars =
      if (v = 0 ∧ arr ≠ ['0']) ∨ 2 ^ 64 ≤ v then .ub .staticAssert else .ok (typeOf longBits v, v) := by
  have hall : ds.all (validChar base) = true := List.all_eq_true.2 fun c hc => (isDigit_iff base hb c).1 (hdig c hc)
  unfold parse
  simp only [hp, hbase, hds, hall, Bool.not_true, Bool.false_eq_true, if_false]
  rw [accumulate_eq base hb ds 0 hdig]
  change (if _ then _ else if _ then _ else if _ then _ else
    if (if numeral base ds ≤ ullMax ∨ ds = [] then numeral base ds else 0) = 0 then _ else _) = _
  simp only [hne, or_false]
  rw [hv] at hsmall ⊢
  by_cases h0 : arr = ['0']
  · have : v = 0 := by rw [hsmall (.inl h0), h0]; decide
    subst this
    simp [h0, typeOf]
  by_cases h1 : arr = ['1']
  · have : v = 1 := by rw [hsmall (.inr (.inl h1)), h1]; decide
    subst this
    simp [h1, typeOf]
  by_cases h2 : arr = ['2']
  · have : v = 2 := by rw [hsmall (.inr (.inr h2)), h2]; decide
    subst this
    simp [h2, typeOf]
  simp only [h0, h1, h2, if_false, ne_eq, not_false_eq_true, and_true]
  have hu : ullMax = 2 ^ 64 - 1 := rfl
  have hfold : ds.foldl (fun x c => x * base + digitValue c) 0 = v := hv
  rw [hfold]
  by_cases hle : v ≤ ullMax
  · simp only [if_pos hle]
    by_cases hv0 : v = 0
    · simp [hv0]
    · rw [if_neg hv0, if_neg (by omega)]
  · rw [if_neg hle, if_pos rfl, if_pos (by omega)]

private theorem no_sep {chars : List Char} {l : List Char} (h : chars.filter (· != '\'') = l) : prepare chars = l := h

/-- **C42.** For every integer literal (with digit separators anywhere) of value `v` the constant has the value `v` and the
first of the types signed char, short, int, long, long long, unsigned long long that holds it; literals with a value of
`2 ^ 64` or more are rejected. Zero is only accepted in the spelling `0`: `00`, `0x0` and the like are rejected. -/
theorem parse_literal (longBits : Nat) (chars lit : List Char) (v : Nat) (hsep : chars.filter (· != '\'') = lit)
    (hlit : IntLiteral lit v) :
    parse longBits chars =
      if (v = 0 ∧ lit ≠ ['0']) ∨ 2 ^ 64 ≤ v then .ub .staticAssert else .ok (typeOf longBits v, v) := by
  cases hlit with
  | dec _ hne hd h0 =>
    refine parse_of longBits chars lit hsep 10 (by simp) ?_ lit rfl hne hd _ rfl fun _ => rfl
    unfold baseOf
    rw [if_neg]
    rintro ⟨h1, _⟩
    rw [List.head?_eq_getElem?] at h0
    exact h0 h1
  | oct ds hd =>
    match ds, hd with
    | [], _ =>
      refine parse_of longBits chars ['0'] hsep 10 (by simp) (by decide) ['0'] rfl (by simp) ?_ _ (by decide) fun _ => rfl
      intro c hc
      rw [List.mem_singleton.1 hc]
      unfold IsDigit; decide
    | [d], hd =>
      have hd1 := hd d (by simp)
      refine parse_of longBits chars ['0', d] hsep 10 (by simp) ?_ ['0', d] rfl (by simp) ?_ _ ?_ fun _ => rfl
      · simp [baseOf]
      · intro c hc
        simp only [List.mem_cons, List.not_mem_nil, or_false] at hc
        rcases hc with rfl | rfl
        · unfold IsDigit; decide
        · have h2 := hd1.2
          refine ⟨?_, by omega⟩
          rcases hd1.1 with h | h
          · exact .inl h
          · simp at h
      · have : digitValue '0' = 0 := by decide
        simp [numeral, this]
    | d :: e :: ds, hd =>
      have hdd := hd d (by simp)
      refine parse_of longBits chars ('0' :: d :: e :: ds) hsep 8 (by simp) ?_ (d :: e :: ds) rfl (by simp) hd _ rfl ?_
      · have hx : d.toNat ≤ 57 := by
          have h2 := hdd.1
          simp only [char_le] at h2
          rcases h2 with h | h
          · exact h.2
          · simp at h
        have hne : ∀ c : Char, 57 < c.toNat → d ≠ c := fun c hc he => by rw [he] at hx; omega
        simp [baseOf, hne 'x' (by decide), hne 'X' (by decide), hne 'b' (by decide)]
      · simp
  | hex x ds hx hne hd =>
    refine parse_of longBits chars ('0' :: x :: ds) hsep 16 (by simp) ?_ ds rfl hne hd _ rfl (by simp)
    have : 0 < ds.length := List.length_pos_iff.2 hne
    simp [baseOf, hx, this]
  | bin ds hne hd =>
    refine parse_of longBits chars ('0' :: 'b' :: ds) hsep 2 (by simp) ?_ ds rfl hne hd _ rfl (by simp)
    have : 0 < ds.length := List.length_pos_iff.2 hne
    simp [baseOf, this]

/-- **C42.** What a literal is accepted as is the value it denotes. -/
theorem parse_value (longBits : Nat) (chars lit : List Char) (v : Nat) (hsep : chars.filter (· != '\'') = lit)
    (hlit : IntLiteral lit v) (t : LitTy) (x : Nat) (h : parse longBits chars = .ok (t, x)) :
    x = v ∧ v < 2 ^ 64 ∧ IsSmallest longBits v t := by
  rw [parse_literal longBits chars lit v hsep hlit] at h
  split at h
  · cases h
  · rename_i hn
    cases h
    have : v < 2 ^ 64 := by omega
    exact ⟨rfl, this, typeOf_smallest longBits v this⟩

/-- **C42.** Accepted literals: every value from 1 to `2 ^ 64 - 1`. -/
theorem parse_accepts (longBits : Nat) (chars lit : List Char) (v : Nat) (hsep : chars.filter (· != '\'') = lit)
    (hlit : IntLiteral lit v) (h0 : 0 < v) (hv : v < 2 ^ 64) : parse longBits chars = .ok (typeOf longBits v, v) := by
  rw [parse_literal longBits chars lit v hsep hlit, if_neg (by omega)]

/-- **C42.** Values that do not fit 64 bits are rejected. -/
theorem parse_too_large (longBits : Nat) (chars lit : List Char) (v : Nat) (hsep : chars.filter (· != '\'') = lit)
    (hlit : IntLiteral lit v) (hv : 2 ^ 64 ≤ v) : parse longBits chars = .ub .staticAssert := by
  rw [parse_literal longBits chars lit v hsep hlit, if_pos (.inr hv)]

/-- **C42.** Nothing else is accepted: an accepted literal is an integer literal, floating-point literals in particular are
not. (`08` and `09`, which the language does not admit as literals, would be.) -/
theorem parse_only (longBits : Nat) (chars lit : List Char) (hsep : chars.filter (· != '\'') = lit) (r : LitTy × Nat)
    (h : parse longBits chars = .ok r) :
    (∃ v, IntLiteral lit v) ∨ lit = ['0', '8'] ∨ lit = ['0', '9'] := by
  have hp : prepare chars = lit := hsep
  unfold parse at h
  simp only [hp] at h
  have hne : lit ≠ [] := by rintro rfl; simp [baseOf, offsetOf, accumulate] at h
  split at h
  · cases h
  rename_i hall
  have hall : ∀ c ∈ lit.drop (offsetOf (baseOf lit)), validChar (baseOf lit) c = true := by simpa using hall
  clear h
  match lit, hne with
  | a :: rest, _ =>
    by_cases ha : a = '0'
    · subst ha
      match rest with
      | [] => exact .inl ⟨_, .oct [] (by simp)⟩
      | [d] =>
        have hb : baseOf ['0', d] = 10 := by simp [baseOf]
        rw [hb] at hall
        have hd := (isDigit_iff 10 (by simp) d).2 (hall d (by simp [offsetOf]))
        have h09 : 48 ≤ d.toNat ∧ d.toNat ≤ 57 := by
          have := hd.1
          simpa [char_le] using this
        by_cases h8 : d = '8'
        · exact .inr (.inl (by rw [h8]))
        by_cases h9 : d = '9'
        · exact .inr (.inr (by rw [h9]))
        refine .inl ⟨_, .oct [d] fun c hc => ?_⟩
        rw [List.mem_singleton.1 hc, isDigit_iff 8 (by simp)]
        have h8' : d.toNat ≠ 56 := fun h => h8 (Char.toNat_inj.1 h)
        have h9' : d.toNat ≠ 57 := fun h => h9 (Char.toNat_inj.1 h)
        have : '0'.toNat = 48 := by decide
        simp only [validChar, this]
        simp
        omega
      | d :: e :: ds =>
        by_cases hx : d = 'x' ∨ d = 'X'
        · have hb : baseOf ('0' :: d :: e :: ds) = 16 := by simp [baseOf, hx]
          rw [hb] at hall
          exact .inl ⟨_, .hex d (e :: ds) hx (by simp) fun c hc =>
            (isDigit_iff 16 (by simp) c).2 (hall c (by simpa [offsetOf] using hc))⟩
        · by_cases hbin : d = 'b'
          · subst hbin
            have hb : baseOf ('0' :: 'b' :: e :: ds) = 2 := by simp [baseOf]
            rw [hb] at hall
            exact .inl ⟨_, .bin (e :: ds) (by simp) fun c hc =>
              (isDigit_iff 2 (by simp) c).2 (hall c (by simpa [offsetOf] using hc))⟩
          · have hb : baseOf ('0' :: d :: e :: ds) = 8 := by
              have h1 : ¬ d = 'x' := fun h => hx (.inl h)
              have h2 : ¬ d = 'X' := fun h => hx (.inr h)
              simp [baseOf, h1, h2, hbin]
            rw [hb] at hall
            exact .inl ⟨_, .oct (d :: e :: ds) fun c hc =>
              (isDigit_iff 8 (by simp) c).2 (hall c (by simpa [offsetOf] using hc))⟩
    · have hb : baseOf (a :: rest) = 10 := by simp [baseOf, ha]
      rw [hb] at hall
      exact .inl ⟨_, .dec (a :: rest) (by simp)
        (fun c hc => (isDigit_iff 10 (by simp) c).2 (hall c (by simpa [offsetOf] using hc))) (by simp [ha])⟩

/-- **C42, limits of the code.** Other spellings of zero and the prefix `0B` are rejected. -/
theorem parse_limits :
    parse 64 "0x0".toList = .ub .staticAssert ∧ parse 64 "00".toList = .ub .staticAssert ∧
      parse 64 "0B11".toList = .ub .staticAssert := by decide

/-! ### the theorems are about something -/

example : parse 64 "1'000'000".toList = .ok (.int, 1000000) := by decide
example : parse 64 "0xfF".toList = .ok (.short, 255) ∧ parse 64 "0b101".toList = .ok (.schar, 5) ∧
    parse 64 "017".toList = .ok (.schar, 15) ∧ parse 64 "0".toList = .ok (.schar, 0) := by decide
example : parse 64 "18446744073709551615".toList = .ok (.ullong, 2 ^ 64 - 1) ∧
    parse 64 "18446744073709551616".toList = .ub .staticAssert := by decide +kernel
example : IntLiteral "1000".toList 1000 :=
  .dec "1000".toList (by decide) (by unfold IsDigit; decide) (by decide)
example : IntLiteral "0xfF".toList 255 :=
  .hex 'x' ['f', 'F'] (.inl rfl) (by decide) (by unfold IsDigit; decide)

/-! ## The theorems applied to concrete data -/

private theorem lit1000 : IntLiteral "1000".toList 1000 := .dec "1000".toList (by decide) (by unfold IsDigit; decide) (by decide)
private theorem litBig : IntLiteral "0x10000000000000000".toList (2 ^ 64) :=
  .hex 'x' "10000000000000000".toList (.inl rfl) (by decide) (by unfold IsDigit; decide)

example := typeOf_smallest 64 40000 (by decide)
example := parse_literal 64 "1'000".toList _ _ (by decide) lit1000
example := parse_value 64 "1'000".toList _ _ (by decide) lit1000 .short 1000 (by decide)
example := parse_accepts 64 "1'000".toList _ _ (by decide) lit1000 (by decide) (by decide)
example := parse_too_large 64 "0x1'0000'0000'0000'0000".toList _ _ (by decide) litBig (by decide)
example := parse_only 64 "1'000".toList _ rfl (.short, 1000) (by decide)

end Vir.Literal
