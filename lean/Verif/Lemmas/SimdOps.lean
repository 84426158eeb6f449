import Verif.Model.SimdOps
import Verif.Lemmas.Simd
import Verif.Lemmas.CInt

namespace Vir

namespace Simd

variable {α β : Type}

/-- A loop that overwrites lane after lane. -/
theorem forUp_lanes {body : Nat → List α → Outcome (List α)} {v r : List α} {n off : Nat}
    (hl : r.length = n) (hb : off + n ≤ v.length)
    (h : ∀ (i : Nat) (hi : i < n) (d : List α), d.length = v.length → (∀ j, off + i ≤ j → d[j]? = v[j]?) →
      body i d = .ok (d.set (off + i) (r[i]'(by omega)))) :
    forUp body n 0 v = .ok (v.take off ++ r ++ v.drop (off + n)) := by
  obtain ⟨d, h1, h2, h3⟩ := forUp_inv body n 0 v
    (fun i d => d.length = v.length ∧ ∀ j : Nat, d[j]? = if off ≤ j ∧ j < off + i then r[j - off]? else v[j]?)
    ⟨rfl, fun j => by rw [if_neg (by omega)]⟩ (by
      intro i d _ hi ⟨hd1, hd2⟩
      refine ⟨_, h i (by omega) d hd1 (fun j hj => by rw [hd2, if_neg (by omega)]), by simp [hd1], fun j => ?_⟩
      rw [List.getElem?_set]
      by_cases hj : off + i = j
      · subst hj
        rw [if_pos rfl, if_pos (by omega), if_pos (by omega),
          List.getElem?_eq_getElem (by omega)]
        congr 2; omega
      · rw [if_neg hj, hd2]
        by_cases hj2 : off ≤ j ∧ j < off + i
        · rw [if_pos hj2, if_pos (by omega)]
        · rw [if_neg hj2, if_neg (by omega)])
  rw [h1]
  congr 1
  refine List.ext_getElem? fun j => ?_
  rw [h3, Nat.zero_add]
  by_cases h4 : j < off
  · rw [if_neg (by omega), List.append_assoc, List.getElem?_append_left (by simp; omega), List.getElem?_take, if_pos h4]
  · by_cases h5 : j < off + n
    · rw [if_pos (by omega), List.append_assoc, List.getElem?_append_right (by simp; omega),
        List.getElem?_append_left (by simp; omega)]
      congr 1; simp; omega
    · rw [if_neg (by omega), List.getElem?_append_right (by simp; omega), List.getElem?_drop]
      congr 1; simp; omega

theorem forUp_all {body : Nat → List α → Outcome (List α)} {v r : List α} (hl : r.length = v.length)
    (h : ∀ (i : Nat) (hi : i < v.length) (d : List α), d.length = v.length → (∀ j, i ≤ j → d[j]? = v[j]?) →
      body i d = .ok (d.set i (r[i]'(by omega)))) :
    forUp body v.length 0 v = .ok r := by
  have := forUp_lanes (off := 0) (n := v.length) (v := v) (r := r) (body := body) hl (by omega) (fun i hi d h1 h2 => by
    simpa using h i hi d h1 (by simpa using h2))
  simpa using this

/-- If no lane traps and some lane is undefined, the whole generator is undefined. -/
theorem gen_some_ub {f : Nat → Outcome α} {n k : Nat} (h : ∀ j, j < n → f j ≠ .trap) (hk : k < n)
    (hu : ∃ u, f k = .ub u) : ∃ u, gen n f = .ub u := by
  suffices H : ∀ c i, (∀ j, i ≤ j → j < i + c → f j ≠ .trap) → i ≤ k → k < i + c → ∃ u, genFrom f c i = .ub u from
    H n 0 (fun j _ hj => h j (by omega)) (by omega) (by omega)
  intro c
  induction c with
  | zero => intro i _ h1 h2; omega
  | succ c ih =>
    intro i hnt h1 h2
    cases hfi : f i with
    | trap => exact absurd hfi (hnt i (Nat.le_refl _) (by omega))
    | ub u => exact ⟨u, by simp [genFrom, hfi]⟩
    | ok x =>
      have hne : i ≠ k := fun he => by
        obtain ⟨u, hu⟩ := hu
        rw [← he, hfi] at hu; cases hu
      obtain ⟨u, hu'⟩ := ih (i + 1) (fun j h3 h4 => hnt j (by omega) (by omega)) (by omega) (by omega)
      exact ⟨u, by simp [genFrom, hfi, hu']⟩

/-- A loop whose body is undefined at some iteration, and never traps, is undefined. -/
theorem forUp_some_ub {S : Type} {body : Nat → S → Outcome S} {n k : Nat} {st : S} (P : S → Prop) (h0 : P st)
    (h : ∀ j s, j < n → P s → (∃ s', body j s = .ok s' ∧ P s') ∨ ∃ u, body j s = .ub u) (hk : k < n)
    (hu : ∀ s, P s → ∃ u, body k s = .ub u) : ∃ u, forUp body n 0 st = .ub u := by
  suffices H : ∀ c i st, P st → i + c = n → i ≤ k → ∃ u, forUp body c i st = .ub u from
    H n 0 st h0 (by omega) (by omega)
  intro c
  induction c with
  | zero => intro i st _ h1 h2; omega
  | succ c ih =>
    intro i st hP h1 h2
    by_cases hik : i = k
    · obtain ⟨u, hu⟩ := hu st hP
      exact ⟨u, by rw [forUp, hik, hu]; rfl⟩
    · rcases h i st (by omega) hP with ⟨s', hs', hP'⟩ | ⟨u, hu'⟩
      · obtain ⟨u, hu'⟩ := ih (i + 1) s' hP' (by omega) (by omega)
        exact ⟨u, by rw [forUp, hs', Outcome.bind_ok, hu']⟩
      · exact ⟨u, by rw [forUp, hu']; rfl⟩

theorem gen_choose {f : Nat → Outcome α} {P : Nat → α → Prop} {n : Nat} (h : ∀ i, i < n → ∃ x, f i = .ok x ∧ P i x) :
    ∃ r, gen n f = .ok r ∧ r.length = n ∧ ∀ (i : Nat) (x : α), r[i]? = some x → P i x := by
  suffices H : ∀ c i, (∀ j, i ≤ j → j < i + c → ∃ x, f j = .ok x ∧ P j x) →
      ∃ r, genFrom f c i = .ok r ∧ r.length = c ∧ ∀ (j : Nat) (x : α), r[j]? = some x → P (i + j) x by
    obtain ⟨r, h1, h2, h3⟩ := H n 0 (fun j _ hj => h j (by omega))
    exact ⟨r, h1, h2, fun i x hx => by simpa using h3 i x hx⟩
  intro c
  induction c with
  | zero => intro i _; exact ⟨[], rfl, rfl, by simp⟩
  | succ c ih =>
    intro i hj
    obtain ⟨x, hx, hP⟩ := hj i (Nat.le_refl _) (by omega)
    obtain ⟨r, h1, h2, h3⟩ := ih (i + 1) fun j h1 h2 => hj j (by omega) (by omega)
    refine ⟨x :: r, by simp [genFrom, hx, h1], by simp [h2], fun j y hy => ?_⟩
    cases j with
    | zero => simp at hy; subst hy; simpa using hP
    | succ j =>
      have := h3 j y (by simpa using hy)
      rw [show i + (j + 1) = i + 1 + j by omega]; exact this

end Simd

open IntTy

/-- The widths of the integer types of the platform: narrow types have at most 16 bits, the others at least 32. -/
def IntTy.Valid (t : IntTy) : Prop := 0 < t.bits ∧ (t.bits ≤ 16 ∨ 32 ≤ t.bits)

theorem IntTy.narrow_bounds {t : IntTy} (h : t.bits ≤ 16) {x : Int} (hx : t.Has x) :
    (t.signed = true → -32768 ≤ x ∧ x ≤ 32767) ∧ (t.signed = false → 0 ≤ x ∧ x ≤ 65535) := by
  have h1 : (2 : Int) ^ (t.bits - 1) ≤ 2 ^ 15 := by
    have := Nat.pow_le_pow_right (n := 2) (by decide) (show t.bits - 1 ≤ 15 by omega)
    exact_mod_cast this
  have h2 : (2 : Int) ^ t.bits ≤ 2 ^ 16 := by
    have := Nat.pow_le_pow_right (n := 2) (by decide) h
    exact_mod_cast this
  unfold IntTy.Has IntTy.lowest IntTy.max at hx
  refine ⟨fun hs => ?_, fun hs => ?_⟩ <;>
    simp only [hs, Bool.false_eq_true, if_false, if_true] at hx <;> omega

theorem has_i32 (x : Int) : i32.Has x ↔ -2147483648 ≤ x ∧ x ≤ 2147483647 := by
  simp [IntTy.Has, IntTy.lowest, IntTy.max, i32]

theorem promote_narrow {t : IntTy} (h : t.bits ≤ 16) : t.promote = i32 := by
  unfold promote; rw [if_pos (by omega)]

theorem promote_wide {t : IntTy} (h : 32 ≤ t.bits) : t.promote = t := by
  unfold promote; rw [if_neg (by omega)]

theorem arith_ok {t : IntTy} (x : Int) (h : t.signed = true → t.Has x) :
    ∃ r, t.arith x = .ok r ∧ r % 2 ^ t.bits = x % 2 ^ t.bits ∧ (t.signed = true → r = x) := by
  unfold arith
  split
  · rename_i hs
    exact ⟨x, by rw [if_pos (h hs)], rfl, fun _ => rfl⟩
  · rename_i hs
    exact ⟨_, rfl, conv_emod t x, fun h => absurd h hs⟩

theorem arith_ub {t : IntTy} {x : Int} (hs : t.signed = true) (h : ¬ t.Has x) : t.arith x = .ub .overflow := by
  simp [arith, hs, h]

/-- An operation computed with `arith` in the promoted type and converted back. -/
theorem promoted_arith {t : IntTy} (hv : t.Valid) (x : Int)
    (hn : t.bits ≤ 16 → i32.Has x) (hw : 32 ≤ t.bits → t.signed = true → t.Has x) :
    ∃ r, (do let r ← t.promote.arith x; .ok (t.conv r)) = Outcome.ok r ∧ t.Has r ∧ r % 2 ^ t.bits = x % 2 ^ t.bits := by
  obtain ⟨r, h1, h2, _⟩ := arith_ok (t := t.promote) x (by
    rcases hv.2 with h | h
    · rw [promote_narrow h]; exact fun _ => hn h
    · rw [promote_wide h]; exact hw h)
  refine ⟨_, by rw [h1]; rfl, has_conv t hv.1 r, ?_⟩
  rw [conv_emod]
  exact emod_pow_of_le (le_promote t) h2

theorem tdiv_abs_le (x y : Int) : (x.tdiv y).natAbs ≤ x.natAbs := by
  rw [Int.natAbs_tdiv]; exact Nat.div_le_self _ _

theorem tdiv_has {t : IntTy} {x y : Int} (hx : t.Has x) (hy : t.Has y)
    (h : ¬ (t.signed = true ∧ x = t.lowest ∧ y = -1)) : t.Has (x.tdiv y) := by
  have habs := tdiv_abs_le x y
  have hpos : (0 : Int) < 2 ^ (t.bits - 1) := Int.pow_pos (by decide)
  cases hs : t.signed
  · have hx0 : 0 ≤ x := by have := hx.1; unfold lowest at this; simp [hs] at this; exact this
    have hy0 : 0 ≤ y := by have := hy.1; unfold lowest at this; simp [hs] at this; exact this
    have := Int.tdiv_nonneg hx0 hy0
    refine ⟨by unfold lowest; simp [hs, this], by have := hx.2; omega⟩
  · have hlm : t.lowest = -t.max - 1 := by unfold IntTy.lowest IntTy.max; simp only [hs, if_true]; omega
    by_cases hxl : x = t.lowest
    · have hy1 : y ≠ -1 := fun h' => h ⟨hs, hxl, h'⟩
      have hxneg : x < 0 := by rw [hxl]; unfold lowest; simp [hs]; omega
      by_cases hy0 : y = 0
      · subst hy0
        rw [Int.tdiv_zero]
        constructor
        · rw [hxl] at hxneg; omega
        · rw [hlm] at hxl; omega
      · by_cases hyp : 0 < y
        · have : x.tdiv y ≤ 0 := by
            have := Int.tdiv_nonneg (a := -x) (b := y) (by omega) (by omega)
            rw [Int.neg_tdiv] at this; omega
          constructor
          · omega
          · have := hx.1; have := hx.2; omega
        · have h2 : 2 ≤ y.natAbs := by omega
          have : (x.tdiv y).natAbs ≤ x.natAbs / 2 := by
            rw [Int.natAbs_tdiv]; exact Nat.div_le_div_left h2 (by omega)
          constructor <;> omega
    · have := hx.1; have := hx.2
      constructor <;> omega

theorem lowest_tdiv_neg_one {t : IntTy} (hs : t.signed = true) : ¬ t.Has (t.lowest.tdiv (-1)) := by
  have : t.lowest.tdiv (-1) = -t.lowest := by rw [Int.tdiv_neg, Int.tdiv_one]
  rw [this]
  unfold IntTy.Has IntTy.lowest IntTy.max
  simp only [hs, if_true]
  omega

end Vir
