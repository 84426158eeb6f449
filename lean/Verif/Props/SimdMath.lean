import Verif.Lemmas.SimdMath
import Verif.Lemmas.LaneOps

/-!
# C61: floating-point operators and math functions; C62: `abs`
-/

namespace Vir.Simd
open Spec IntTy

variable {α β γ δ S : Type}

/-- **C61.** A math function of one argument (and unary minus) does what calling the scalar function on lane 0, 1, ... does,
including the side effects on the floating-point environment and `errno`. -/
theorem math1_spec (f : α → S → β × S) (x : List α) (s : S) : math1 f x s = .ok (inOrder f x s) :=
  genS_inOrder rfl (fun j hj s => by simp [at'_eq hj])

/-- **C61.** The same for two arguments: binary operators, comparisons, `pow`, `isless`, `ldexp`, ... -/
theorem math2_spec (f : α → β → S → γ × S) (x : List α) (y : List β) (hl : y.length = x.length) (s : S) :
    math2 f x y s = .ok (inOrder (fun p => f p.1 p.2) (pairs x y) s) :=
  genS_inOrder (xs := pairs x y) (by simp [pairs, hl]) (fun j hj s => by
    simp only [pairs, List.length_zip, hl, Nat.min_self] at hj
    simp [at'_eq hj, at'_eq (show j < y.length by omega), pairs])

/-- **C61.** The same for three arguments: `fma`, `hypot`. -/
theorem math3_spec (f : α → β → γ → S → δ × S) (x : List α) (y : List β) (z : List γ) (hy : y.length = x.length)
    (hz : z.length = x.length) (s : S) :
    math3 f x y z s = .ok (inOrder (fun p => f p.1 p.2.1 p.2.2) (triples x y z) s) :=
  genS_inOrder (xs := triples x y z) (by simp [triples, hy, hz]) (fun j hj s => by
    simp only [triples, List.length_zip, hy, hz, Nat.min_self] at hj
    simp [at'_eq hj, at'_eq (show j < y.length by omega), at'_eq (show j < z.length by omega), triples])

/-- **C61.** `frexp`: the second results are stored in the lanes of `*exp`, all of which are written. -/
theorem frexp_spec (f : α → S → (β × γ) × S) (x : List α) (out : List γ) (hl : out.length = x.length) (s : S) :
    mathOut f x out s = .ok ((inOrder f x s).1.map Prod.fst, (inOrder f x s).1.map Prod.snd, (inOrder f x s).2) := by
  have := genSFrom_out (F := fun i (st : List γ × S) => do
      let a ← at' x i
      let ((b, c), s) := f a st.2
      let out ← putAt st.1 i c
      .ok (b, out, s)) (g := f) (xs := x) (orig := out) (i := 0) (s := s) (by omega) (partial_zero out)
    (fun j hj d new s hp => by
      simp only [Nat.zero_add] at hp ⊢
      have hd := partial_length hp (by omega)
      simp [at'_eq hj, putAt, show j < d.length by omega])
  unfold mathOut genS
  rw [this]
  simp [List.drop_eq_nil_of_le (Nat.le_of_eq hl)]

/-- **C61.** `remquo` likewise. -/
theorem remquo_spec (f : α → α → S → (α × γ) × S) (x y : List α) (quo : List γ) (hy : y.length = x.length)
    (hl : quo.length = x.length) (s : S) :
    remquo f x y quo s =
      let r := inOrder (fun p => f p.1 p.2) (pairs x y) s
      .ok (r.1.map Prod.fst, r.1.map Prod.snd, r.2) := by
  have hxs : (pairs x y).length = x.length := by simp [pairs, hy]
  have := genSFrom_out (F := fun i (st : List γ × S) => do
      let a ← at' x i
      let b ← at' y i
      let ((b, c), s) := f a b st.2
      let out ← putAt st.1 i c
      .ok (b, out, s)) (g := fun p => f p.1 p.2) (xs := pairs x y) (orig := quo) (i := 0) (s := s) (by omega)
    (partial_zero quo)
    (fun j hj d new s hp => by
      simp only [Nat.zero_add] at hp ⊢
      have hd := partial_length hp (by omega)
      rw [hxs] at hj
      simp [at'_eq hj, at'_eq (show j < y.length by omega), putAt, show j < d.length by omega, pairs])
  unfold remquo genS
  rw [← hxs, this]
  simp [List.drop_eq_nil_of_le (show quo.length ≤ (pairs x y).length by omega)]

/-- **C61.** `modf(x, iptr)`: fractional parts are returned and integral parts stored, also if `iptr` points to `x`. -/
theorem modf_spec (f : α → S → (α × α) × S) (x : Option (List α)) (out : List α)
    (hl : ∀ y, x = some y → out.length = y.length) (s : S) :
    modf f x out s =
      let r := inOrder f (x.getD out) s
      .ok (r.1.map Prod.fst, r.1.map Prod.snd, r.2) := by
  have hxs : (x.getD out).length = out.length := by
    cases x with
    | none => rfl
    | some y => exact (hl y rfl).symm
  have := genSFrom_out (F := fun i (st : List α × S) => do
      let a ← at' (x.getD st.1) i
      let ((b, c), s) := f a st.2
      let out ← putAt st.1 i c
      .ok (b, out, s)) (g := f) (xs := x.getD out) (orig := out) (i := 0) (s := s) (by omega) (partial_zero out)
    (fun j hj d new s hp => by
      simp only [Nat.zero_add] at hp ⊢
      have hd := partial_length hp (by omega)
      have hr : at' (x.getD d) j = .ok (x.getD out)[j] := by
        cases x with
        | none =>
          have := partial_get hp
          simp only [Option.getD_none, at', this]
          simp only [Option.getD_none] at hj
          rw [List.getElem?_eq_getElem hj]
        | some y => exact at'_eq hj
      simp [hr, putAt, show j < d.length by omega])
  unfold modf genS
  rw [this]
  simp [List.drop_eq_nil_of_le (Nat.le_of_eq hxs.symm)]

/-- **C61.** A compound assignment leaves in the object what the binary operator returns, also when both operands are the
same object. -/
theorem compoundS_spec (f : α → α → S → α × S) (x : List α) (rhs : Option (List α))
    (hl : ∀ y, rhs = some y → y.length = x.length) (s : S) :
    compoundS f x rhs s = math2 f x (rhs.getD x) s := by
  have hyl : (rhs.getD x).length = x.length := by
    cases rhs with
    | none => rfl
    | some y => exact hl y rfl
  rw [math2_spec f x _ hyl s]
  have hxs : (pairs x (rhs.getD x)).length = x.length := by simp [pairs, hyl]
  have := forUp_inOrder (F := fun i (st : List α × S) => do
      let a ← rd st.1 i
      let b ← rd (rhs.getD st.1) i
      let (c, s) := f a b st.2
      let d ← wr st.1 i c
      .ok (d, s)) (g := fun p => f p.1 p.2) (xs := pairs x (rhs.getD x)) (orig := x) (i := 0) (s := s) (by omega)
    (partial_zero x)
    (fun j hj d new s hp => by
      simp only [Nat.zero_add] at hp ⊢
      have hd := partial_length hp (by omega)
      rw [hxs] at hj
      have ha : rd d j = .ok x[j] := by rw [rd, partial_get hp, List.getElem?_eq_getElem hj]
      have hb : rd (rhs.getD d) j = .ok ((rhs.getD x)[j]'(by omega)) := by
        cases rhs with
        | none => exact ha
        | some y => exact rd_eq _
      simp [ha, hb, wr, show j < d.length by omega, pairs])
  unfold compoundS
  rw [← hxs, this]
  simp [List.drop_eq_nil_of_le (show x.length ≤ (pairs x (rhs.getD x)).length by omega)]

/-- **C61.** `++` and `--` step every lane. -/
theorem stepS_spec (f : α → S → α × S) (x : List α) (s : S) : stepS f x s = .ok (inOrder f x s) := by
  have := forUp_inOrder (F := fun i (st : List α × S) => do
      let a ← rd st.1 i
      let (c, s) := f a st.2
      let d ← wr st.1 i c
      .ok (d, s)) (g := f) (xs := x) (orig := x) (i := 0) (s := s) (by omega) (partial_zero x)
    (fun j hj d new s hp => by
      simp only [Nat.zero_add] at hp ⊢
      have hd := partial_length hp (by omega)
      have ha : rd d j = .ok x[j] := by rw [rd, partial_get hp, List.getElem?_eq_getElem hj]
      simp [ha, wr, show j < d.length by omega])
  unfold stepS
  rw [this]
  simp

/-- **C61.** Without side effects: lane `i` of the result is the function of the lanes `i` of the arguments. -/
theorem math_lanes (f1 : α → δ) (f2 : α → β → δ) (f3 : α → β → γ → δ) (x : List α) (y : List β) (z : List γ)
    (hy : y.length = x.length) (hz : z.length = x.length) :
    math1 (fun a (_ : Unit) => (f1 a, ())) x () = .ok (x.map f1, ()) ∧
    math2 (fun a b (_ : Unit) => (f2 a b, ())) x y () = .ok (List.zipWith f2 x y, ()) ∧
    math3 (fun a b c (_ : Unit) => (f3 a b c, ())) x y z () =
      .ok (List.zipWith (fun a (p : β × γ) => f3 a p.1 p.2) x (y.zip z), ()) := by
  have key : ∀ {ε : Type} (g : ε → δ) (xs : List ε), inOrder (fun a (_ : Unit) => (g a, ())) xs () = (xs.map g, ()) := by
    intro ε g xs
    induction xs with
    | nil => rfl
    | cons a as ih => simp [inOrder, ih]
  refine ⟨by rw [math1_spec, key], ?_, ?_⟩
  · rw [math2_spec _ _ _ hy, key (fun p : α × β => f2 p.1 p.2)]
    simp [pairs, List.zip, List.map_zipWith]
  · rw [math3_spec _ _ _ _ hy hz, key (fun p : α × β × γ => f3 p.1 p.2.1 p.2.2)]
    simp [triples, List.zip, List.map_zipWith]

/-! ### C62 -/

/-- **C62 (partial).** `abs` of a signed integer simd: the absolute value in every lane, provided no lane is the lowest
value. Missing: that case, see `absInt_lowest`. -/
theorem absInt_spec_partial (t : IntTy) (hv : ValidTy t) (hs : t.signed = true) (x : List Int) (hx : ∀ a ∈ x, t.Has a)
    (hd : t.lowest ∉ x) : absInt t x = .ok (x.map fun a => (a.natAbs : Int)) := by
  refine gen_list (by simp) fun i v hv' => ?_
  obtain ⟨hi, hv'⟩ := List.getElem?_eq_some_iff.mp hv'
  have hi' : i < x.length := by simpa using hi
  rw [← hv']
  have hmem := List.getElem_mem hi'
  have hh := hx _ hmem
  have hne : x[i] ≠ t.lowest := fun h => hd (h ▸ hmem)
  have habs : (if x[i] < 0 then -x[i] else x[i]) = (x[i].natAbs : Int) := by split <;> omega
  have hhas : t.Has (x[i].natAbs : Int) := by
    have h1 := hh.1; have h2 := hh.2
    simp only [lowest, IntTy.max, hs, if_true] at h1 h2 hne
    constructor <;> simp only [lowest, IntTy.max, hs, if_true] <;> omega
  have hps : t.promote.signed = true := by unfold promote; split <;> simp [hs, i32]
  simp only [at'_eq hi', Outcome.bind_ok, habs, arith, hps, if_true, if_pos (promote_has hv.1 hhas),
    conv_of_has hv.1 hhas, List.getElem_map]

/-- **C62.** A lane with the lowest value: undefined if the type has at least 32 bits, otherwise the lane keeps its negative
value. -/
theorem absInt_lowest (t : IntTy) (hv : ValidTy t) (hs : t.signed = true) :
    absInt t [t.lowest] = if 32 ≤ t.bits then .ub .overflow else .ok [t.lowest] := by
  have hp2 : (2 : Int) ^ t.bits = 2 * 2 ^ (t.bits - 1) := two_pow_succ_pred hv.1
  have hpos : (0 : Int) < 2 ^ (t.bits - 1) := Int.pow_pos (by omega)
  have hlow : t.lowest = -2 ^ (t.bits - 1) := by simp [lowest, hs]
  have habs : (if t.lowest < 0 then -t.lowest else t.lowest) = 2 ^ (t.bits - 1) := by rw [hlow]; split <;> omega
  have hgen : absInt t [t.lowest] = (do
      let r ← t.promote.arith (2 ^ (t.bits - 1))
      .ok [t.conv r]) := by
    simp only [absInt, gen, List.length_cons, List.length_nil, Nat.zero_add, genFrom, at', List.getElem?_cons_zero,
      Outcome.bind_ok, habs, Outcome.bind_assoc]
  rw [hgen]
  by_cases hb : 32 ≤ t.bits
  · rw [if_pos hb, promote_wide hb, arith_ub hs (fun h => by
      have := h.2
      simp only [IntTy.max, hs, if_true] at this
      omega)]
    rfl
  · rw [if_neg hb]
    have hb' : t.bits ≤ 16 := by have := hv.2; omega
    have hle : (2 : Int) ^ (t.bits - 1) ≤ 2 ^ 15 := by
      exact_mod_cast Nat.pow_le_pow_right (n := 2) (by omega) (show t.bits - 1 ≤ 15 by omega)
    have h32 : i32.Has (2 ^ (t.bits - 1)) := (has_i32 _).mpr ⟨by omega, by omega⟩
    have har : i32.arith (2 ^ (t.bits - 1)) = .ok (2 ^ (t.bits - 1)) := by
      unfold arith
      rw [if_pos (show i32.signed = true from rfl), if_pos h32]
    rw [promote_narrow hb', har, Outcome.bind_ok]
    have : t.conv (2 ^ (t.bits - 1)) = t.lowest := by
      refine has_eq_of_emod hv.1 (has_conv t hv.1 _) ⟨Int.le_refl _, ?_⟩ ?_
      · simp only [lowest, IntTy.max, hs, if_true]; omega
      · rw [conv_emod, hlow, hp2]
        generalize (2 : Int) ^ (t.bits - 1) = p
        exact Int.emod_eq_emod_iff_emod_sub_eq_zero.mpr (by
          have e : p - -p = 2 * p := by omega
          rw [e, Int.emod_self])
    rw [this]

/-- **C62.** The exact result for every simd: with at least 32 bits undefined if a lane is the lowest value, otherwise the
absolute value in every lane but those with the lowest value, which keep it. -/
theorem absInt_exact (t : IntTy) (hv : ValidTy t) (hs : t.signed = true) (x : List Int) (hx : ∀ a ∈ x, t.Has a) :
    (32 ≤ t.bits ∧ t.lowest ∈ x → ∃ u, absInt t x = .ub u) ∧
    (¬ (32 ≤ t.bits ∧ t.lowest ∈ x) →
      absInt t x = .ok (x.map fun a => if a = t.lowest then a else (a.natAbs : Int))) := by
  have hlow := absInt_lowest t hv hs
  have hone : ∀ a, absInt t [a] = (do
      let r ← t.promote.arith (if a < 0 then -a else a)
      .ok [t.conv r]) := fun a => by
    simp only [absInt, gen, List.length_cons, List.length_nil, Nat.zero_add, genFrom, at', List.getElem?_cons_zero,
      Outcome.bind_ok, Outcome.bind_assoc]
  refine ⟨fun ⟨hb, hm⟩ => ?_, fun hd => ?_⟩
  · obtain ⟨k, hk, hkx⟩ := List.getElem_of_mem hm
    refine gen_some_ub (k := k) (fun j hj => ?_) hk ?_
    · rw [at'_eq hj, Outcome.bind_ok]
      unfold IntTy.arith
      repeat' split
      all_goals simp
    · rw [at'_eq hk, Outcome.bind_ok, hkx]
      rw [hone, if_pos hb] at hlow
      cases har : t.promote.arith (if t.lowest < 0 then -t.lowest else t.lowest) with
      | ok r => rw [har] at hlow; cases hlow
      | trap => rw [har] at hlow; cases hlow
      | ub u => exact ⟨u, rfl⟩
  · refine gen_list (by simp) fun i v hv' => ?_
    obtain ⟨hi, hv'⟩ := List.getElem?_eq_some_iff.mp hv'
    have hi' : i < x.length := by simpa using hi
    rw [← hv', at'_eq hi', Outcome.bind_ok, List.getElem_map]
    have hmem := List.getElem_mem hi'
    by_cases hl : x[i] = t.lowest
    · have hb : ¬ 32 ≤ t.bits := fun hb => hd ⟨hb, hl ▸ hmem⟩
      rw [hone, if_neg hb] at hlow
      rw [if_pos hl, hl]
      cases har : t.promote.arith (if t.lowest < 0 then -t.lowest else t.lowest) with
      | ok r =>
        rw [har, Outcome.bind_ok] at hlow
        simp only [Outcome.ok.injEq, List.cons.injEq, and_true] at hlow
        rw [Outcome.bind_ok, hlow]
      | trap => rw [har] at hlow; cases hlow
      | ub u => rw [har] at hlow; cases hlow
    · have h1 := absInt_spec_partial t hv hs [x[i]] (by simpa using hx _ hmem) (by simpa using fun h => hl h.symm)
      rw [hone] at h1
      rw [if_neg hl]
      cases har : t.promote.arith (if x[i] < 0 then -x[i] else x[i]) with
      | ok r =>
        rw [har, Outcome.bind_ok] at h1
        simp only [List.map_cons, List.map_nil, Outcome.ok.injEq, List.cons.injEq, and_true] at h1
        rw [Outcome.bind_ok, h1]
      | trap => rw [har] at h1; cases h1
      | ub u => rw [har] at h1; cases h1

/-! ### the theorems are about something -/

/-- A scalar function that logs its arguments, like one that reports errors in `errno`. -/
def exLogged (a : Int) (log : List Int) : (Int × Int) × List Int := ((a % 2, a / 2), log ++ [a])

example : modf exLogged none [7, 8, 10] [] = .ok ([1, 0, 0], [3, 4, 5], [7, 8, 10]) := by decide +kernel
example : modf exLogged (some [7, 8, 10]) [0, 0, 0] [] = .ok ([1, 0, 0], [3, 4, 5], [7, 8, 10]) := by decide +kernel
example : compoundS (fun a b (_ : Unit) => (a * 2 + b, ())) [1, 2] none () = .ok ([3, 6], ()) := by decide +kernel
example : absInt i16 [-7, 32767, 0] = .ok [7, 32767, 0] ∧ absInt i16 [-32768] = .ok [-32768] ∧
    absInt i32 [3, -2147483648] = .ub .overflow := by decide +kernel

/-! ## The theorems applied to concrete data -/

/-- A function which keeps a log of its calls, as a math function changing `errno` does. -/
private def logPair (a b : Nat) (s : List Nat) : Nat × List Nat := (a * b, s ++ [a])

private def logHalf (a : Nat) (s : List Nat) : (Nat × Nat) × List Nat := ((a / 2, a % 2), s ++ [a])

example := math2_spec logPair [1, 2, 3] [4, 5, 6] rfl []
example := math3_spec (fun a b c s => logPair (a + b) c s) [1, 2, 3] [4, 5, 6] [7, 8, 9] rfl rfl []
example := frexp_spec logHalf [1, 2, 3] [0, 0, 0] rfl []
example := remquo_spec (fun a b s => logHalf (a + b) s) [1, 2, 3] [4, 5, 6] [0, 0, 0] rfl rfl []
example := modf_spec logHalf (some [1, 2, 3]) [0, 0, 0] (by rintro _ ⟨⟩; rfl) []
example := modf_spec logHalf none [7, 8, 9] (by rintro _ ⟨⟩) []
example := compoundS_spec logPair [1, 2, 3] none (by rintro _ ⟨⟩) []
example := math_lanes (fun a : Nat => a + 1) (fun a b : Nat => a * b) (fun a b c : Nat => a * b + c) [1, 2] [3, 4] [5, 6] rfl rfl
example := absInt_spec_partial i16 (by unfold ValidTy; decide) rfl [-7, 32767, 0] (by decide) (by decide)
example := absInt_lowest i32 (by unfold ValidTy; decide) rfl
example := (absInt_exact i64 (by unfold ValidTy; decide) rfl [3, i64.lowest, 5] (by decide)).1 (by decide)
example := (absInt_exact i8 (by unfold ValidTy; decide) rfl [3, -128, -5] (by decide)).2 (by decide)

end Vir.Simd
