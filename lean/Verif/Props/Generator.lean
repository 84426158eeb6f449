import Mathlib.Data.Finset.Max
import Mathlib.Data.Finset.Prod
import Mathlib.Order.Interval.Finset.Defs
import Mathlib.Data.Int.Interval
import Verif.Model.Generator
import Verif.Props.ValuePreserving

/-!
# C88: values given to the broadcast and generator constructors arrive unchanged
-/

namespace Vir.Convert
open Spec

/-- A value of its type. -/
def TypedVal.Ok (v : TypedVal) : Prop := StandardTy v.ty ∧ IsValue v.ty v.val

/-- The result of a conversion to a floating-point type is a value of the type. -/
def Rounds (rnd : FloatTy → ℚ → ℚ) : Prop :=
  ∀ f, (0 < f.digits ∧ f.digits < f.emax ∧ 128 ≤ f.emax) → ∀ q, FloatValue f (rnd f q)

private theorem conv_has : ∀ t ∈ [IntTy.i8, .u8, .i16, .u16, .i32, .u32, .i64, .u64], ∀ v : ℤ, t.Has v → t.conv v = v := by
  intro t ht v hv
  simp only [List.mem_cons, List.not_mem_nil, or_false] at ht
  rcases ht with rfl | rfl | rfl | rfl | rfl | rfl | rfl | rfl <;>
    simp only [IntTy.Has, IntTy.lowest, IntTy.max, IntTy.conv, IntTy.i8, IntTy.u8, IntTy.i16, IntTy.u16, IntTy.i32, IntTy.u32, IntTy.i64,
      IntTy.u64, if_true, if_false, Bool.false_eq_true] at hv ⊢ <;>
    first | omega | (rw [Int.bmod_eq_of_le] <;> omega)

private theorem conv_range : ∀ t ∈ [IntTy.i8, .u8, .i16, .u16, .i32, .u32, .i64, .u64], ∀ v : ℤ, t.Has (t.conv v) := by
  intro t ht v
  have b (m : ℕ) (hm : 0 < m) : -((m : ℤ) / 2) ≤ v.bmod m ∧ v.bmod m < ((m : ℤ) + 1) / 2 := ⟨Int.le_bmod hm, Int.bmod_lt hm⟩
  have b8 := b (2 ^ 8) (by decide)
  have b16 := b (2 ^ 16) (by decide)
  have b32 := b (2 ^ 32) (by decide)
  have b64 := b (2 ^ 64) (by decide)
  simp only [List.mem_cons, List.not_mem_nil, or_false] at ht
  rcases ht with rfl | rfl | rfl | rfl | rfl | rfl | rfl | rfl <;>
    simp only [IntTy.Has, IntTy.lowest, IntTy.max, IntTy.conv, IntTy.i8, IntTy.u8, IntTy.i16, IntTy.u16, IntTy.i32, IntTy.u32,
      IntTy.i64, IntTy.u64, if_true, if_false, Bool.false_eq_true] <;> omega

/-- A conversion keeps the values that the target type has. -/
theorem castTo_exact (rnd : FloatTy → ℚ → ℚ) (hr : IsRounding rnd) (dst : ArithTy) (hd : StandardTy dst) (v : TypedVal)
    (h : IsValue dst v.val) : castTo rnd dst v = .ok v.val := by
  cases dst with
  | bool =>
    rcases h with h | h <;> simp [castTo, h]
  | int t tag =>
    obtain ⟨i, hi, hv⟩ := h
    have hc := conv_has t hd i hi
    cases hvt : v.ty <;> simp only [castTo, hvt, hv, Int.floor_intCast, Int.ceil_intCast, ite_self, if_pos hi, Rat.num_intCast, hc]
  | float f tag =>
    simp only [castTo, (hr f).1 _ h]

/-- A conversion never yields the old value if the target type does not have it. -/
theorem castTo_changes (rnd : FloatTy → ℚ → ℚ) (hr : Rounds rnd) (dst : ArithTy) (hd : StandardTy dst) (v : TypedVal)
    (h : ¬ IsValue dst v.val) : castTo rnd dst v ≠ .ok v.val := by
  intro hc
  apply h
  cases dst with
  | bool =>
    simp only [castTo] at hc
    injection hc with hc
    split at hc
    · exact .inl hc.symm
    · exact .inr hc.symm
  | int t tag =>
    cases hvt : v.ty with
    | float f g =>
      simp only [castTo, hvt] at hc
      generalize (if 0 ≤ v.val then ⌊v.val⌋ else ⌈v.val⌉) = i at hc
      by_cases hi : t.Has i
      · rw [if_pos hi] at hc
        injection hc with hc
        exact ⟨_, hi, hc.symm⟩
      · rw [if_neg hi] at hc
        cases hc
    | bool =>
      simp only [castTo, hvt] at hc
      injection hc with hc
      exact ⟨_, conv_range t hd _, hc.symm⟩
    | int s g =>
      simp only [castTo, hvt] at hc
      injection hc with hc
      exact ⟨_, conv_range t hd _, hc.symm⟩
  | float f tag =>
    simp only [castTo] at hc
    injection hc with hc
    have := hr f hd v.val
    rw [hc] at this
    exact this

private theorem initLanes_exact (rnd : FloatTy → ℚ → ℚ) (dst : ArithTy) (gen : Nat → TypedVal) (n i : Nat)
    (h : ∀ j < n, castTo rnd dst (gen (i + j)) = .ok (gen (i + j)).val) :
    initLanes rnd dst gen n i = .ok ((List.range n).map fun j => (gen (i + j)).val) := by
  induction n generalizing i with
  | zero => rfl
  | succ n ih =>
    have h0 := h 0 (by omega)
    rw [Nat.add_zero] at h0
    rw [initLanes, h0, ih (i + 1) fun j hj => by rw [show i + 1 + j = i + (j + 1) by omega]; exact h (j + 1) (by omega)]
    simp only [Outcome.bind_ok, List.range_succ_eq_map, List.map_cons, List.map_map, Nat.add_zero]
    congr 3
    funext j
    simp only [Function.comp_apply, Nat.succ_eq_add_one]
    rw [show i + 1 + j = i + (j + 1) by omega]

private theorem initLanes_ok {rnd : FloatTy → ℚ → ℚ} {dst : ArithTy} {gen : Nat → TypedVal} {n i : Nat} {r : List ℚ}
    (h : initLanes rnd dst gen n i = .ok r) : r.length = n ∧ ∀ j (hj : j < r.length), castTo rnd dst (gen (i + j)) = .ok r[j] := by
  induction n generalizing i r with
  | zero => cases h; exact ⟨rfl, fun j hj => absurd hj (by simp)⟩
  | succ n ih =>
    rw [initLanes] at h
    cases hx : castTo rnd dst (gen i) with
    | ub e => rw [hx] at h; cases h
    | trap => rw [hx] at h; cases h
    | ok x =>
      rw [hx] at h
      cases hxs : initLanes rnd dst gen n (i + 1) with
      | ub e => rw [hxs] at h; cases h
      | trap => rw [hxs] at h; cases h
      | ok xs =>
        rw [hxs] at h
        cases h
        obtain ⟨h1, h2⟩ := ih hxs
        refine ⟨by simp [h1], fun j hj => ?_⟩
        cases j with
        | zero => exact hx
        | succ j =>
          have := h2 j (by simpa using hj)
          rw [show i + 1 + j = i + (j + 1) by omega] at this
          exact this

/-- **C88 (partial).** If the generator returns values of one type for all indices, the constructor is viable, and the type is not `int`
(nor `unsigned` for unsigned elements), then every lane has the value that the generator returned. -/
theorem generate_partial (rnd : FloatTy → ℚ → ℚ) (hr : IsRounding rnd) (dst : ArithTy) (hd : StandardTy dst) (n : Nat)
    (gen : Nat → TypedVal) (hg : ∀ i, (gen i).Ok) (T : ArithTy) (hT : ∀ i, (gen i).ty = T)
    (hint : T ≠ .cint) (huint : ¬ (T = .cuint ∧ dst.isSigned = false))
    (hv : generate rnd dst n gen ≠ .ub .staticAssert) :
    generate rnd dst n gen = .ok ((List.range n).map fun i => (gen i).val) := by
  unfold generate at hv ⊢
  split at hv
  · rename_i hacc
    rw [if_pos hacc]
    have := initLanes_exact rnd dst gen n 0 (fun j hj => by
      refine castTo_exact rnd hr dst hd _ ?_
      rw [hT 0] at hacc
      have hs := hg (0 + j)
      have hs1 := hs.1
      have hs2 := hs.2
      rw [hT] at hs1 hs2
      exact acceptsBroadcast_preserves rnd hr T dst hs1 hd hacc hint huint _ hs2)
    simpa using this
  · exact absurd rfl hv

/-- **C88 (exact).** The constructor is viable exactly if the type for index 0 is accepted. Then every lane has the value that the
generator returned exactly if all of these are values of the element type. -/
theorem generate_iff (rnd : FloatTy → ℚ → ℚ) (hr : IsRounding rnd) (hv : Rounds rnd) (dst : ArithTy)
    (hd : StandardTy dst) (hb : dst ≠ .bool) (n : Nat) (gen : Nat → TypedVal) (hg : ∀ i, (gen i).Ok) :
    generate rnd dst n gen = .ok ((List.range n).map fun i => (gen i).val) ↔
      ((gen 0).ty = .cint ∨ ((gen 0).ty = .cuint ∧ dst.isSigned = false) ∨ ∀ q, IsValue (gen 0).ty q → IsValue dst q) ∧
      ∀ i < n, IsValue dst (gen i).val := by
  rw [← acceptsBroadcast_iff rnd hr _ dst (hg 0).1 hd hb]
  unfold generate
  constructor
  · intro h
    split at h
    · rename_i hacc
      refine ⟨hacc, fun i hi => ?_⟩
      have h2 := (initLanes_ok h).2 i (by simpa using hi)
      simp only [List.getElem_map, List.getElem_range, Nat.zero_add] at h2
      by_contra hc
      exact castTo_changes rnd hv dst hd _ hc h2
    · cases h
  · rintro ⟨hacc, hi⟩
    rw [if_pos hacc]
    have := initLanes_exact rnd dst gen n 0 (fun j hj => castTo_exact rnd hr dst hd _ (hi _ (by omega)))
    simpa using this

/-- **C88 for broadcasts.** The constructor is viable exactly if the type is accepted, and then all lanes have the value exactly if it is
a value of the element type. -/
theorem broadcastVal_iff (rnd : FloatTy → ℚ → ℚ) (hr : IsRounding rnd) (hv : Rounds rnd) (dst : ArithTy)
    (hd : StandardTy dst) (hb : dst ≠ .bool) (n : Nat) (hn : 0 < n) (v : TypedVal) (hg : v.Ok) :
    broadcastVal rnd dst n v = .ok (List.replicate n v.val) ↔
      (v.ty = .cint ∨ (v.ty = .cuint ∧ dst.isSigned = false) ∨ ∀ q, IsValue v.ty q → IsValue dst q) ∧ IsValue dst v.val := by
  rw [← acceptsBroadcast_iff rnd hr _ dst hg.1 hd hb]
  unfold broadcastVal
  constructor
  · intro h
    split at h
    · rename_i hacc
      refine ⟨hacc, ?_⟩
      cases hc : castTo rnd dst v with
      | ub e => rw [hc] at h; cases h
      | trap => rw [hc] at h; cases h
      | ok x =>
        rw [hc] at h
        simp only [Outcome.bind_ok] at h
        injection h with h
        have hx : x = v.val := by
          have := congrArg (·[0]?) h
          simpa [hn] using this
        by_contra hne
        exact castTo_changes rnd hv dst hd v hne (by rw [hc, hx])
    · cases h
  · rintro ⟨hacc, hi⟩
    rw [if_pos hacc, castTo_exact rnd hr dst hd v hi]
    rfl

/-- A generator for `short` that returns `short` for index 0 and `long long` after. -/
def exGen (i : Nat) : TypedVal := if i = 0 then ⟨.int .i16 4, 1⟩ else ⟨.int .i64 8, 65537⟩

/-- **C88 is false of the code**: only the type for index 0 is checked. `long long` is no acceptable type for `short` elements, but the
generator is accepted and the second lane is 1 instead of 65537. -/
theorem generate_wrong (rnd : FloatTy → ℚ → ℚ) :
    acceptsBroadcast rnd (exGen 1).ty (.int .i16 4) = false ∧ generate rnd (.int .i16 4) 2 exGen = .ok [1, 1] := by
  have e1 : IntTy.i16.conv 1 = 1 := by decide
  have e2 : IntTy.i16.conv 65537 = 1 := by decide
  constructor
  · change acceptsBroadcast rnd (.int .i64 8) (.int .i16 4) = false
    have h : ¬ (ArithTy.int ⟨64, true⟩ 8).digits ≤ (ArithTy.int ⟨16, true⟩ 4).digits := by decide
    simp [acceptsBroadcast, valuePreserving, h, ArithTy.cint, ArithTy.cuint, IntTy.i64, IntTy.i16, IntTy.i32, IntTy.u32]
  · simp only [generate, exGen, acceptsBroadcast, initLanes, castTo]
    norm_num [e1, e2]

/-! ### the theorems are about something -/

open Classical in
/-- All values of a floating-point type. -/
private noncomputable def values (f : FloatTy) : Finset ℚ :=
  (Finset.Icc (-(2 ^ f.digits : ℤ)) (2 ^ f.digits) ×ˢ Finset.Icc (3 - f.emax - f.digits : ℤ) (f.emax - f.digits)).image
    (fun p => (p.1 : ℚ) * 2 ^ p.2) |>.filter (FloatValue f)

open Classical in
private theorem mem_values (f : FloatTy) (q : ℚ) : q ∈ values f ↔ FloatValue f q := by
  unfold values
  rw [Finset.mem_filter]
  refine ⟨fun h => h.2, fun h => ⟨?_, h⟩⟩
  obtain ⟨m, e, h1, h2, h3, rfl⟩ := h
  rw [Finset.mem_image]
  refine ⟨(m, e), ?_, rfl⟩
  rw [Finset.mem_product, Finset.mem_Icc, Finset.mem_Icc]
  have := abs_lt.1 h1
  exact ⟨⟨by omega, by omega⟩, h2, h3⟩

/-- Rounding toward minus infinity, and to the lowest value below that. -/
private noncomputable def down (f : FloatTy) (q : ℚ) : ℚ :=
  if h : ((values f).filter (· ≤ q)).Nonempty then ((values f).filter (· ≤ q)).max' h
  else if h : (values f).Nonempty then (values f).min' h else q

private theorem down_rounding : IsRounding down ∧ Rounds down := by
  refine ⟨fun f => ⟨fun q hq => ?_, fun p q hpq => ?_⟩, fun f hf q => ?_⟩
  · have hm : q ∈ (values f).filter (· ≤ q) := by simp [mem_values, hq]
    unfold down
    rw [dif_pos ⟨q, hm⟩]
    exact le_antisymm (Finset.max'_le _ _ _ fun y hy => (Finset.mem_filter.1 hy).2) (Finset.le_max' _ _ hm)
  · have hsub : (values f).filter (· ≤ p) ⊆ (values f).filter (· ≤ q) := by
      intro x hx
      rw [Finset.mem_filter] at hx ⊢
      exact ⟨hx.1, hx.2.trans hpq⟩
    unfold down
    by_cases h1 : ((values f).filter (· ≤ p)).Nonempty
    · rw [dif_pos h1, dif_pos (h1.mono hsub)]
      exact Finset.max'_subset h1 hsub
    · rw [dif_neg h1]
      by_cases h2 : ((values f).filter (· ≤ q)).Nonempty
      · rw [dif_pos h2]
        have h3 : (values f).Nonempty := h2.mono (Finset.filter_subset _ _)
        rw [dif_pos h3]
        exact Finset.min'_le _ _ (Finset.filter_subset _ _ (Finset.max'_mem _ h2))
      · rw [dif_neg h2]
        by_cases h3 : (values f).Nonempty
        · rw [dif_pos h3, dif_pos h3]
        · rw [dif_neg h3, dif_neg h3]; exact hpq
  · have hne : (values f).Nonempty := ⟨0, (mem_values f 0).2 ⟨0, 0, by simp, by omega, by omega, by simp⟩⟩
    unfold down
    rw [← mem_values]
    split
    · rename_i h
      exact Finset.filter_subset _ _ (Finset.max'_mem _ h)
    · exact Finset.min'_mem _ hne

/-- There is a rounding with values of the type as results. -/
example : ∃ rnd, IsRounding rnd ∧ Rounds rnd := ⟨down, down_rounding⟩

/-- A generator of `float`s for `double` elements. -/
example : generate down (.float .double 1) 3 (fun i => ⟨.float .float 0, i⟩) ≠ .ub .staticAssert := by
  have : acceptsBroadcast down (.float .float 0) (.float .double 1) = true := by
    rw [acceptsBroadcast_iff down down_rounding.1 _ _ (by simp [StandardTy, FloatTy.float]) (by simp [StandardTy, FloatTy.double]) (by simp)]
    refine .inr (.inr ?_)
    rintro q ⟨m, e, h1, h2, h3, rfl⟩
    simp only [FloatTy.float, FloatTy.double] at *
    exact ⟨m, e, by dsimp only; omega, by dsimp only; omega, by dsimp only; omega, rfl⟩
  simp [generate, this, initLanes, castTo]

example (i : Nat) : (exGen i).Ok := by
  unfold exGen
  split
  · exact ⟨by simp [StandardTy], 1, by decide, by norm_num⟩
  · exact ⟨by simp [StandardTy], 65537, by decide, by norm_num⟩

/-- `static_cast<int>(-2.5)`. -/
example (rnd : FloatTy → ℚ → ℚ) : castTo rnd (.int .i32 0) ⟨.float .double 1, -5 / 2⟩ = .ok (-2) := by
  have : ⌈(-5 / 2 : ℚ)⌉ = -2 := by rw [Int.ceil_eq_iff]; norm_num
  have h0 : ¬ (0 : ℚ) ≤ -5 / 2 := by norm_num
  have h1 : IntTy.i32.Has (-2) := by decide
  simp only [castTo, if_neg h0, this, if_pos h1]
  norm_num

/-! ## The theorems applied to concrete data -/

example := castTo_exact down down_rounding.1 (.int .i32 0) (by simp [StandardTy]) ⟨.float .double 1, 5⟩ ⟨5, by decide, by norm_num⟩

private theorem small (q : ℤ) (h : IntTy.i32.Has q) : IsValue .cint (q : ℚ) := ⟨q, h, rfl⟩

example := castTo_changes down down_rounding.2 (.int .i32 0) (by simp [StandardTy]) ⟨.float .double 1, 5 / 2⟩ (by
  rintro ⟨m, -, h⟩
  have h2 : (m : ℚ) * 2 = 5 := by dsimp only at h; linarith
  have h3 : m * 2 = 5 := by exact_mod_cast h2
  omega)
example := generate_iff down down_rounding.1 down_rounding.2 (.int .i32 0) (by simp [StandardTy]) (by simp) 3 (fun i => ⟨.cint, ((i % 7 : ℕ) : ℤ)⟩)
  (fun i => ⟨by simp [ArithTy.cint, StandardTy], small _ ⟨le_trans (by decide : IntTy.i32.lowest ≤ 0) (by omega), le_trans (by omega : ((i % 7 : ℕ) : ℤ) ≤ 7) (by decide)⟩⟩)
example := broadcastVal_iff down down_rounding.1 down_rounding.2 (.int .i32 0) (by simp [StandardTy]) (by simp) 4 (by decide) ⟨.cint, (5 : ℤ)⟩
  ⟨by simp [ArithTy.cint, StandardTy], small 5 (by decide)⟩

end Vir.Convert
