import Verif.Props.Permute
import Verif.Spec.PermuteAlgebra
import Mathlib.Data.List.Nodup
import Mathlib.Data.List.Perm.Subperm
import Mathlib.Data.List.FinRange

/-!
# C91: algebraic laws of permutations

Two permutations in a row are one permutation by the composed index function; a permutation by a bijection of the lanes loses and
copies nothing and is undone by the inverse bijection; permutations commute with lane-wise functions; shifts, rotations and
`simd_shift_in` are related as their names say.
-/

namespace Vir.Permute
open Vir.Simd Vir.Spec

variable {α β : Type}

private theorem select (P : PEnv) (zero : α) (junk : Nat → Outcome α) (n : Nat) (f : IdxFn) (rot : Option Int) (v : List α)
    (hp : Plain P n v) (hrot : GoodRotation P n f rot) {g : Nat → Nat} (hf : Selects f v.length (if n = 0 then v.length else n) g) :
    ∃ r, simdPermute P zero junk [] n f rot v = .ok r ∧ r.length = (if n = 0 then v.length else n) ∧
      ∀ i, i < (if n = 0 then v.length else n) → r[i]? = v[g i]? := by
  rw [simdPermute_eq_generic P zero junk n f rot v hp hrot]
  exact generic_of_index g hp.small hf

/-- **C91, composition.** `simd_permute<m>(simd_permute<n>(v, f), g)` is `simd_permute<m>(v, h)`, where `h` selects for lane `i` what
`f` selects for the lane that `g` selects. The three calls may use different implementations. -/
theorem simdPermute_comp (P Q R : PEnv) (zero : α) (junk : Nat → Outcome α) (n m : Nat) (hn : 0 < n) (hm : 0 < m) (hn31 : n < 2 ^ 31 - 2)
    (f g h : IdxFn) (rf rg rh : Option Int) (v : List α) (hP : Plain P n v) (hR : Plain R m v)
    (hQ : Q.sizeR = m * Q.sizeT) (hQ' : Q.isFloat = true → Q.sizeT = 4)
    (hrf : GoodRotation P n f rf) (hrg : GoodRotation Q m g rg) (hrh : GoodRotation R m h rh)
    {a b : Nat → Nat} (hf : Selects f v.length n a) (hg : Selects g n m b) (hh : Selects h v.length m fun i => a (b i)) :
    (do simdPermute Q zero junk [] m g rg (← simdPermute P zero junk [] n f rf v)) = simdPermute R zero junk [] m h rh v := by
  have en : (if n = 0 then v.length else n) = n := if_neg (by omega)
  have em : ∀ w : List α, (if m = 0 then w.length else m) = m := fun w => if_neg (by omega)
  obtain ⟨r, h1, h2, h3⟩ := select P zero junk n f rf v hP hrf (g := a) (by rw [en]; exact hf)
  rw [en] at h2 h3
  obtain ⟨s, h4, h5, h6⟩ := select Q zero junk m g rg r ⟨by omega, by omega, by rw [em]; exact hQ, hQ'⟩ hrg (g := b)
    (by rw [em, h2]; exact hg)
  obtain ⟨t, h7, h8, h9⟩ := select R zero junk m h rh v hR hrh (g := fun i => a (b i)) (by rw [em]; exact hh)
  rw [em] at h5 h6 h8 h9
  rw [h1, Outcome.bind_ok, h4, h7]
  congr 1
  refine List.ext_getElem? fun i => ?_
  by_cases hi : i < m
  · rw [h6 i hi, h9 i hi, h3 _ (hg i hi).1]
  · rw [List.getElem?_eq_none (by omega), List.getElem?_eq_none (by omega)]

/-- **C91, bijections.** If `f` selects every lane for at most one lane of the result, the result consists of the same values in another order. -/
theorem simdPermute_perm (P : PEnv) (zero : α) (junk : Nat → Outcome α) (f : IdxFn) (rot : Option Int) (v : List α)
    (hp : Plain P 0 v) (hrot : GoodRotation P 0 f rot) {g : Nat → Nat} (hf : Selects f v.length v.length g)
    (hg : ∀ i j, i < v.length → j < v.length → g i = g j → i = j) :
    ∃ r, simdPermute P zero junk [] 0 f rot v = .ok r ∧ r.Perm v := by
  obtain ⟨r, h1, h2, h3⟩ := select P zero junk 0 f rot v hp hrot (g := g) (by simpa using hf)
  simp only [if_true] at h2 h3
  refine ⟨r, h1, ?_⟩
  have hr : r = ((List.range v.length).map g).map fun i => v.getD i zero := by
    refine List.ext_getElem? fun i => ?_
    by_cases hi : i < v.length
    · have hgi := (hf i hi).1
      rw [h3 i hi]
      simp [hi, hgi]
    · rw [List.getElem?_eq_none (by omega), List.getElem?_eq_none (by simp; omega)]
  have hv : v = (List.range v.length).map fun i => v.getD i zero := by
    refine List.ext_getElem? fun i => ?_
    by_cases hi : i < v.length
    · simp [hi]
    · rw [List.getElem?_eq_none (by omega), List.getElem?_eq_none (by simp; omega)]
  have hperm : ((List.range v.length).map g).Perm (List.range v.length) := by
    refine List.Subperm.perm_of_length_le ?_ (by simp)
    refine List.Nodup.subperm ?_ ?_
    · refine List.Nodup.map_on ?_ List.nodup_range
      intro x hx y hy hxy
      exact hg x y (List.mem_range.1 hx) (List.mem_range.1 hy) hxy
    · intro x hx
      obtain ⟨i, hi, rfl⟩ := List.mem_map.1 hx
      exact List.mem_range.2 (hf i (List.mem_range.1 hi)).1
  rw [hr]
  conv => rhs; rw [hv]
  exact hperm.map _

/-- **C91, inverse.** Permuting by the inverse selection restores the value. -/
theorem simdPermute_undo (P : PEnv) (zero : α) (junk : Nat → Outcome α) (f f' : IdxFn) (rot rot' : Option Int) (v : List α)
    (hp : Plain P 0 v) (hrot : GoodRotation P 0 f rot) (hrot' : GoodRotation P 0 f' rot') {g g' : Nat → Nat}
    (hf : Selects f v.length v.length g) (hf' : Selects f' v.length v.length g') (hg : ∀ i, i < v.length → g (g' i) = i) :
    (do simdPermute P zero junk [] 0 f' rot' (← simdPermute P zero junk [] 0 f rot v)) = .ok v := by
  obtain ⟨r, h1, h2, h3⟩ := select P zero junk 0 f rot v hp hrot (g := g) (by simpa using hf)
  simp only [if_true] at h2 h3
  have hpr : Plain P 0 r := ⟨by rw [h2]; exact hp.pos, by rw [h2]; exact hp.small, by rw [h2]; exact hp.sizeR, hp.float⟩
  obtain ⟨s, h4, h5, h6⟩ := select P zero junk 0 f' rot' r hpr hrot' (g := g') (by simpa [h2] using hf')
  simp only [if_true] at h5 h6
  rw [h1, Outcome.bind_ok, h4]
  congr 1
  refine List.ext_getElem? fun i => ?_
  by_cases hi : i < v.length
  · rw [h6 i (by omega), h3 _ (hf' i hi).1, hg i hi]
  · rw [List.getElem?_eq_none (by omega), List.getElem?_eq_none (by omega)]

/-- **C91, naturality.** A lane-wise function that keeps zero may be applied before or after the permutation, also if the two
permutations use different implementations. -/
theorem simdPermute_map (P Q : PEnv) (zero : α) (zero' : β) (junk : Nat → Outcome α) (junk' : Nat → Outcome β) (n : Nat) (f : IdxFn)
    (rp rq : Option Int) (v : List α) (k : α → β) (hP : Plain P n v) (hQ : Plain Q n (v.map k)) (hrp : GoodRotation P n f rp)
    (hrq : GoodRotation Q n f rq) (hz : k zero = zero')
    (hf : ∀ i, i < (if n = 0 then v.length else n) → ∃ j x, f i v.length = .ok j ∧ Picks zero v j x) :
    ∃ r, simdPermute P zero junk [] n f rp v = .ok r ∧ simdPermute Q zero' junk' [] n f rq (v.map k) = .ok (r.map k) := by
  have picks : ∀ j x, Picks zero v j x → Picks zero' (v.map k) j (k x) := by
    intro j x h
    rcases h with ⟨h, rfl⟩ | ⟨h, h'⟩ | ⟨h, h', h''⟩
    · exact Or.inl ⟨h, hz⟩
    · exact Or.inr (Or.inl ⟨h, by simp [h']⟩)
    · exact Or.inr (Or.inr ⟨h, by simpa using h', by simp [h'']⟩)
  obtain ⟨r, h1, h2, h3⟩ := simdPermute_spec_partial P zero junk n f rp v hP hrp hf
  refine ⟨r, h1, ?_⟩
  rw [simdPermute_eq_generic Q zero' junk' n f rq _ hQ hrq]
  have hl : (if n = 0 then (v.map k).length else n) = r.length := by rw [h2, List.length_map]
  rw [hl]
  have : r.map k = (List.range r.length).map fun i => k (r.getD i zero) := by
    refine List.ext_getElem? fun i => ?_
    by_cases hi : i < r.length
    · simp [hi]
    · rw [List.getElem?_eq_none (by simp; omega), List.getElem?_eq_none (by simp; omega)]
  rw [this]
  refine gen_eq _ _ _ fun i hi => ?_
  obtain ⟨j, hj, hx⟩ := h3 i (r.getD i zero) (by simp [hi])
  exact genericLane_picks (by simpa using hP.small) (by simpa using hj) (picks _ _ hx)

/-- **C91, lane-wise operations on two values.** Without zero lanes any operation commutes with the permutation. -/
theorem simdPermute_zipWith (P : PEnv) (zero : α) (junk : Nat → Outcome α) (n : Nat) (f : IdxFn) (rot : Option Int) (v w : List α)
    (op : α → α → α) (hl : w.length = v.length) (hp : Plain P n v) (hrot : GoodRotation P n f rot) {g : Nat → Nat}
    (hf : Selects f v.length (if n = 0 then v.length else n) g) :
    simdPermute P zero junk [] n f rot (List.zipWith op v w) = (do
      let a ← simdPermute P zero junk [] n f rot v
      let b ← simdPermute P zero junk [] n f rot w
      .ok (List.zipWith op a b)) := by
  have hz : (List.zipWith op v w).length = v.length := by simp [hl]
  have tr : ∀ u : List α, u.length = v.length → Plain P n u := fun u hu =>
    ⟨by rw [hu]; exact hp.pos, by rw [hu]; exact hp.small, by rw [hu]; exact hp.sizeR, hp.float⟩
  obtain ⟨a, h1, h2, h3⟩ := select P zero junk n f rot v hp hrot hf
  obtain ⟨b, h4, h5, h6⟩ := select P zero junk n f rot w (tr w hl) hrot (g := g) (by rw [hl]; exact hf)
  obtain ⟨c, h7, h8, h9⟩ := select P zero junk n f rot _ (tr _ hz) hrot (g := g) (by rw [hz]; exact hf)
  rw [hl] at h5 h6
  rw [hz] at h8 h9
  rw [h1, h4, h7]
  simp only [Outcome.bind_ok]
  congr 1
  refine List.ext_getElem? fun i => ?_
  by_cases hi : i < (if n = 0 then v.length else n)
  · rw [h9 i hi, List.getElem?_zipWith, List.getElem?_zipWith, h3 i hi, h6 i hi]
  · rw [List.getElem?_eq_none (by omega), List.getElem?_eq_none (by simp; omega)]

/-- **C91, shifting in nothing.** For non-negative offsets `simd_shift_in<O>(v)` is `simd_permute(v, shift<O>)`. -/
theorem shiftIn_eq_shift (P : PEnv) (zero : α) (junk : Nat → Outcome α) (v : List α) (hp : Plain P 0 v) (o : Nat)
    (ho : o + v.length ≤ 2 ^ 31) :
    simdShiftIn zero o v [] = simdPermute P zero junk [] 0 (shift o) none v := by
  have hs := hp.small
  obtain ⟨r, h1, h2, h3⟩ := simdShiftIn_lanes zero (o : Int) v [] hp.pos (by simp) (by simp; omega) (by omega) (by omega)
  obtain ⟨s, h4, h5, h6⟩ := shift_spec P zero junk v hp (o : Int) (by omega) (by omega)
  rw [h1, h4]
  congr 1
  refine List.ext_getElem? fun i => ?_
  by_cases hi : i < v.length
  · rw [h3 i hi, h6 i hi, if_pos (by omega), if_pos (by omega)]; simp
  · rw [List.getElem?_eq_none (by omega), List.getElem?_eq_none (by omega)]

/-- **C91, shifting in nothing, negative offsets.** Here the two differ: `shift<-O>` fills with zeros, `simd_shift_in<-O>` with the last
lanes of the value, so they agree only if those are zero. -/
theorem shiftIn_shift_negative (P : PEnv) (zero : α) (junk : Nat → Outcome α) (v : List α) (hp : Plain P 0 v) (o : Nat)
    (h0 : 0 < o) (ho : o ≤ v.length) :
    simdShiftIn zero (-o) v [] = simdPermute P zero junk [] 0 (shift (-o)) none v ↔
      ∀ i, v.length - o ≤ i → i < v.length → v[i]? = some zero := by
  have hs := hp.small
  obtain ⟨r, h1, h2, h3⟩ := simdShiftIn_lanes zero (-(o : Int)) v [] hp.pos (by simp) (by simp; omega) (by omega) (by omega)
  obtain ⟨s, h4, h5, h6⟩ := shift_spec P zero junk v hp (-(o : Int)) (by omega) (by omega)
  rw [h1, h4]
  have lane : ∀ i : Nat, i < o → r[i]? = v[v.length - o + i]? ∧ s[i]? = some zero := by
    intro i hi
    have hn : ¬ 0 ≤ (i : Int) + -(o : Int) := by omega
    rw [h3 i (by omega), h6 i (by omega), if_neg hn, if_neg hn, if_pos (by omega)]
    refine ⟨?_, rfl⟩
    have e : ((v.length : Int) + ((i : Int) + -(o : Int))).toNat = v.length - o + i := by omega
    rw [e, List.getD_eq_getElem?_getD, List.getElem?_eq_getElem (by omega)]; rfl
  constructor
  · intro h i hi1 hi2
    have h : r = s := by simpa using h
    obtain ⟨l1, l2⟩ := lane (i - (v.length - o)) (by omega)
    rw [h, l2] at l1
    rw [l1]; congr 1; omega
  · intro h
    congr 1
    refine List.ext_getElem? fun i => ?_
    by_cases hi : i < v.length
    · by_cases hio : i < o
      · rw [(lane i hio).1, (lane i hio).2, h _ (by omega) (by omega)]
      · have hn : 0 ≤ (i : Int) + -(o : Int) := by omega
        rw [h3 i hi, h6 i hi, if_pos hn, if_pos hn]; simp
    · rw [List.getElem?_eq_none (by omega), List.getElem?_eq_none (by omega)]

/-- **C91, shifting in the value itself.** `simd_shift_in<O>(v, v)` is `simd_permute(v, rotate<O>)` for `0 ≤ O ≤ size` (on platforms
where `rotate` is right, see C25). -/
theorem shiftIn_self_eq_rotate (P : PEnv) (zero : α) (junk : Nat → Outcome α) (v : List α) (hp : Plain P 0 v) (o : Nat)
    (ho : o ≤ v.length) (hs2 : 2 * v.length < 2 ^ 31) (hrot : P.avx2 = false ∨ P.isFloat = false ∨ o % 2 ≠ 0 ∨ o < 8) :
    simdShiftIn zero o v [v] = simdPermute P zero junk [] 0 (rotate o) (some (o : Int)) v := by
  have h0 := hp.pos
  obtain ⟨r, h1, h2, h3⟩ := simdShiftIn_lanes zero (o : Int) v [v] hp.pos (by simp) (by simp; omega) (by omega) (by omega)
  obtain ⟨s, h4, h5, h6⟩ := rotate_spec_partial P zero junk v hp (o : Int) (by omega) (by omega) (Or.inl (by omega))
    (by rcases hrot with h | h | h | h
        · exact Or.inl h
        · exact Or.inr (Or.inl h)
        · exact Or.inr (Or.inr (Or.inl (by omega)))
        · exact Or.inr (Or.inr (Or.inr (by omega))))
  rw [h1, h4]
  congr 1
  refine List.ext_getElem? fun i => ?_
  by_cases hi : i < v.length
  · rw [h3 i hi, h6 i hi, if_pos (by omega)]
    have e : ((i : Int) + (o : Int)).toNat = i + o := by omega
    rw [e, List.getD_eq_getElem?_getD]
    simp only [List.flatten_cons, List.flatten_nil, List.append_nil]
    by_cases hlt : i + o < v.length
    · rw [List.getElem?_append_left hlt, Int.emod_eq_of_lt (by omega) (by omega), e, List.getElem?_eq_getElem hlt]; rfl
    · by_cases h2o : i + o < 2 * v.length
      · have e2 : (((i : Int) + (o : Int)) % (v.length : Int)).toNat = i + o - v.length := by
          have : ((i : Int) + (o : Int)) % (v.length : Int) = (i + o - v.length : Int) := by
            rw [← Int.sub_emod_right, Int.emod_eq_of_lt (by omega) (by omega)]
          omega
        rw [List.getElem?_append_right (by omega), e2, List.getElem?_eq_getElem (by omega)]; rfl
      · omega
  · rw [List.getElem?_eq_none (by omega), List.getElem?_eq_none (by omega)]

/-- **C91, shifts compose.** Two shifts in the same direction are one shift by the sum. -/
theorem shift_shift (P : PEnv) (zero : α) (junk : Nat → Outcome α) (v : List α) (hp : Plain P 0 v) (a b : Int)
    (hab : (0 ≤ a ∧ 0 ≤ b) ∨ (a ≤ 0 ∧ b ≤ 0)) (ha : -2 ^ 30 ≤ a ∧ -2 ^ 30 ≤ b) (ha' : a + v.length ≤ 2 ^ 30 ∧ b + v.length ≤ 2 ^ 30) :
    (do simdPermute P zero junk [] 0 (shift b) none (← simdPermute P zero junk [] 0 (shift a) none v)) =
      simdPermute P zero junk [] 0 (shift (a + b)) none v := by
  obtain ⟨r, h1, h2, h3⟩ := shift_spec P zero junk v hp a (by omega) (by omega)
  have hpr : Plain P 0 r := ⟨by rw [h2]; exact hp.pos, by rw [h2]; exact hp.small, by rw [h2]; exact hp.sizeR, hp.float⟩
  obtain ⟨s, h4, h5, h6⟩ := shift_spec P zero junk r hpr b (by omega) (by omega)
  obtain ⟨t, h7, h8, h9⟩ := shift_spec P zero junk v hp (a + b) (by omega) (by omega)
  rw [h1, Outcome.bind_ok, h4, h7]
  congr 1
  refine List.ext_getElem? fun i => ?_
  by_cases hi : i < v.length
  · rw [h6 i (by omega), h9 i hi]
    congr 1
    by_cases hb : 0 ≤ (i : Int) + b
    · rw [if_pos hb, List.getD_eq_getElem?_getD]
      by_cases hlt : ((i : Int) + b).toNat < v.length
      · rw [h3 _ hlt]
        have e1 : ((((i : Int) + b).toNat : Nat) : Int) + a = i + (a + b) := by omega
        rw [e1]; rfl
      · rw [List.getElem?_eq_none (by omega), if_pos (by omega), List.getD_eq_getElem?_getD, List.getElem?_eq_none (by omega)]
    · rw [if_neg hb, if_neg (by omega)]
  · rw [List.getElem?_eq_none (by omega), List.getElem?_eq_none (by omega)]

/-! ## Non-vacuity -/

-- reversing and then rotating by one, as one permutation
example : Selects reverse 4 4 (fun i => 3 - i) ∧ Selects (rotate 1) 4 4 (fun i => (i + 1) % 4) ∧
    Selects (fun i _ => .ok (if i = 3 then 3 else 2 - (i : Int))) 4 4 (fun i => 3 - (i + 1) % 4) := by
  refine ⟨?_, ?_, ?_⟩ <;> intro i hi <;> obtain rfl | rfl | rfl | rfl : i = 0 ∨ i = 1 ∨ i = 2 ∨ i = 3 := by omega
  all_goals decide
example : simdPermute ⟨true, false, false, true, true, true, 4, 16, 4⟩ 0 (fun _ => .ub .uninit) [] 4
    (fun i _ => .ok (if i = 3 then 3 else 2 - (i : Int))) none [10, 20, 30, 40] = .ok [30, 20, 10, 40] := by decide +kernel
-- a wider result followed by a narrower one
example : (do
    let r ← simdPermute ⟨true, false, false, true, true, true, 4, 24, 4⟩ 0 (fun _ => .ub .uninit) [] 6 (fun i _ => .ok (i % 3)) none
      [7, 8, 9]
    simdPermute ⟨true, false, false, true, true, true, 4, 8, 4⟩ 0 (fun _ => .ub .uninit) [] 2 (broadcast (-1)) none r) = .ok [9, 9] := by decide +kernel
example : simdShiftIn 0 3 [1, 2, 3, 4] [[1, 2, 3, 4]] = .ok [4, 1, 2, 3] := by decide +kernel
-- shifting to and fro loses lanes: the directions of `shift_shift` matter
example : (do
    let r ← simdPermute ⟨true, false, false, true, true, true, 4, 16, 4⟩ 0 (fun _ => .ub .uninit) [] 0 (shift 1) none [1, 2, 3, 4]
    simdPermute ⟨true, false, false, true, true, true, 4, 16, 4⟩ 0 (fun _ => .ub .uninit) [] 0 (shift (-1)) none r) = .ok [0, 2, 3, 4] := by decide +kernel

/-! ## The theorems applied to concrete data -/

private def four : PEnv := ⟨true, false, false, true, true, true, 4, 16, 4⟩
private theorem four_plain (n : Nat) (hn : n = 0 ∨ n = 4) : Plain (α := Nat) four n [10, 20, 30, 40] := by
  rcases hn with rfl | rfl <;> exact ⟨by decide, by decide, by decide, by decide⟩
private def noJunk : Nat → Outcome Nat := fun _ => .ub .uninit

private theorem selects4 : Selects reverse 4 4 (fun i => 3 - i) ∧ Selects (rotate 1) 4 4 (fun i => (i + 1) % 4) ∧
    Selects (rotate 3) 4 4 (fun i => (i + 3) % 4) ∧ Selects (fun i _ => .ok (if i = 3 then 3 else 2 - (i : Int))) 4 4 (fun i => 3 - (i + 1) % 4) := by
  refine ⟨?_, ?_, ?_, ?_⟩ <;> intro i hi <;> obtain rfl | rfl | rfl | rfl : i = 0 ∨ i = 1 ∨ i = 2 ∨ i = 3 := by omega
  all_goals decide

example := simdPermute_comp four four four 0 noJunk 4 4 (by decide) (by decide) (by decide) reverse (rotate 1) _ none none none [10, 20, 30, 40]
  (four_plain 4 (.inr rfl)) (four_plain 4 (.inr rfl)) (by decide) (by decide) (Or.inl rfl) (Or.inl rfl) (Or.inl rfl) selects4.1 selects4.2.1 selects4.2.2.2
example := simdPermute_perm four 0 noJunk reverse none _ (four_plain 0 (.inl rfl)) (Or.inl rfl) selects4.1 (by simp; omega)
example := simdPermute_undo four 0 noJunk (rotate 1) (rotate 3) none none _ (four_plain 0 (.inl rfl)) (Or.inl rfl) (Or.inl rfl) selects4.2.1 selects4.2.2.1
  (by intro i hi; have : i < 4 := hi; omega)
example := simdPermute_map four four 0 1 noJunk noJunk 0 reverse none none _ (fun x => x + 1) (four_plain 0 (.inl rfl))
  ⟨by decide, by decide, by decide, by decide⟩ (Or.inl rfl) (Or.inl rfl) rfl (by
    intro i hi
    have hi : i < 4 := hi
    unfold Picks
    obtain rfl | rfl | rfl | rfl : i = 0 ∨ i = 1 ∨ i = 2 ∨ i = 3 := by omega
    exacts [⟨-1, 40, rfl, by decide⟩, ⟨-2, 30, rfl, by decide⟩, ⟨-3, 20, rfl, by decide⟩, ⟨-4, 10, rfl, by decide⟩])
example := simdPermute_zipWith four 0 noJunk 0 reverse none [10, 20, 30, 40] [1, 2, 3, 4] (· + ·) rfl (four_plain 0 (.inl rfl)) (Or.inl rfl) selects4.1
example := shiftIn_eq_shift four 0 noJunk _ (four_plain 0 (.inl rfl)) 3 (by decide)
example := shiftIn_shift_negative four 0 noJunk _ (four_plain 0 (.inl rfl)) 2 (by decide) (by decide)
example := shiftIn_self_eq_rotate four 0 noJunk _ (four_plain 0 (.inl rfl)) 3 (by decide) (by decide) (Or.inr (Or.inr (Or.inl (by decide))))
example := shift_shift four 0 noJunk _ (four_plain 0 (.inl rfl)) (-1) (-2) (Or.inr (by decide)) (by decide) (by decide)

end Vir.Permute
