import Verif.Model.AlgoTypes
import Verif.Spec.Traits

/-!
# C78: the element types `transform`, `transform_reduce` and `reduce` compile with
-/

namespace Vir
open Vir.Traits Vir.Casts Vir.AlgoTypes Spec

/-- The callable returns objects with elements of type `u`, whatever the width of its arguments is. -/
def Spec.ReturnsElements (op : Nat → Option Ty) (u : Num) : Prop := ∀ w, op w = some (.simd (.num u) (deduce w))

/-- The callable takes two objects of type `simd<t, ...>` of the same width and returns another one. -/
def Spec.TakesSimds (red : BinTy) (t : Num) : Prop :=
  ∀ w, red (.simd (.num t) (deduce w)) (.simd (.num t) (deduce w)) = some (.simd (.num t) (deduce w))

/-- The callable also takes two plain values of type `t` and returns a plain value. -/
def Spec.TakesValues (red : BinTy) (t : Num) : Prop := ∃ r, red (.num t) (.num t) = some r ∧ isArithmetic r = true

/-- The call works with single elements only: width 1 and no alignment prologue. -/
def Spec.SingleElements (i : Inst) : Prop := i.size = 1 ∧ i.prologueMax = []

variable {c : Convs} {i : Inst} {red : BinTy} {op : Nat → Option Ty} {t u : Num}

private theorem fits_self (c : Convs) (t : Ty) (w : Nat) : fits c (S t w) (S t w) = true := by simp [S, fits, implicit]

private theorem fits_one (h : fits c (S (.num u) 1) (S (.num t) 1) = true) : u = t := by
  have hd : deduce 1 = .scalar := rfl
  simp only [S, hd, fits, implicit] at h
  split at h
  · rename_i h'; simpa using h'
  · simp at h

private theorem plain_iff : hreduceCompiles.plain red (.num t) = true ↔ TakesValues red t := by
  unfold hreduceCompiles.plain TakesValues
  cases red (.num t) (.num t) <;> simp

private theorem hreduce_plain (n : Nat) : hreduceCompiles red (.num t) n = true → hreduceCompiles.plain red (.num t) = true := by
  induction n using Nat.strongRecOn with
  | _ n ih =>
    intro h
    unfold hreduceCompiles at h
    split at h
    · simp only [Bool.and_eq_true] at h
      refine ih _ ?_ h.1.2
      have h1 : n / 2 ≠ 0 := by omega
      have := Nat.log2_self_le h1
      omega
    · exact h

private theorem hreduce_ok (hr : TakesSimds red t) (hp : hreduceCompiles.plain red (.num t) = true) (n : Nat) :
    hreduceCompiles red (.num t) n = true := by
  induction n using Nat.strongRecOn with
  | _ n ih =>
    unfold hreduceCompiles
    split
    · have h1 : n / 2 ≠ 0 := by omega
      have h2 := Nat.log2_self_le h1
      have h3 : 0 < 2 ^ Nat.log2 (n / 2) := Nat.two_pow_pos _
      simp only [Bool.and_eq_true, decide_eq_true_eq]
      refine ⟨⟨hr _, ih _ (by omega)⟩, ?_⟩
      split
      · simp [hp, ih (n - 2 * 2 ^ Nat.log2 (n / 2)) (by omega)]
      · rfl
    · exact hp

/-! ### transform -/

/-- **C78.** Whatever `op` is, its result for single elements has the element type of the output range, or is a plain value that
converts to it. -/
theorem transform_single_type (h : transformCompiles c i (.num t) op = true) :
    op 1 = some (.simd (.num t) .scalar) ∨ ∃ a, op 1 = some (.num a) ∧ c.bc (.num a) (.num t) = true := by
  simp only [transformCompiles, Bool.and_eq_true, List.all_eq_true] at h
  have h := h.2 1 (by simp [transformWidths])
  cases ho : op 1 with
  | none => simp [ho, fitsRes] at h
  | some s =>
    simp only [ho, fitsRes] at h
    have hd : deduce 1 = .scalar := rfl
    cases s <;> simp only [fits, S, hd, Bool.false_eq_true] at h
    · exact .inr ⟨_, rfl, h⟩
    · left
      simp only [implicit] at h
      split at h
      · rename_i h'; rw [h']
      · simp at h

/-- **C78.** With an `op` that returns elements of one type, `transform` compiles exactly if that is the element type of the output
range, for every policy. -/
theorem transform_types (ho : ReturnsElements op u) : transformCompiles c i (.num t) op = true ↔ u = t := by
  constructor
  · intro h
    rcases transform_single_type h with h | ⟨a, h, _⟩
    · rw [ho 1] at h; simpa using (Ty.simd.inj (Option.some.inj h)).1
    · rw [ho 1] at h; simp at h
  · rintro rfl
    simp only [transformCompiles, Bool.and_eq_true, List.all_eq_true]
    refine ⟨rfl, fun w _ => ?_⟩
    rw [ho w]
    exact fits_self c _ w

/-! ### transform_reduce -/

/-- **C78.** Whatever the callables are, the result of `transform_op` for single elements has the type of `init`, or is a plain value
that converts to it. -/
theorem transformReduce_single_type (h : transformReduceCompiles c i red (.num t) op = true) :
    op 1 = some (.simd (.num t) .scalar) ∨ ∃ a, op 1 = some (.num a) ∧ c.bc (.num a) (.num t) = true := by
  simp only [transformReduceCompiles, Bool.and_eq_true] at h
  have h := h.1.1.1.1.1.1.2.1
  cases ho : op 1 with
  | none => simp [ho, fitsRes] at h
  | some s =>
    simp only [ho, fitsRes] at h
    have hd : deduce 1 = .scalar := rfl
    cases s <;> simp only [fits, S, hd, Bool.false_eq_true] at h
    · exact .inr ⟨_, rfl, h⟩
    · left
      simp only [implicit] at h
      split at h
      · rename_i h'; rw [h']
      · simp at h

private theorem prologue_plain {max : Nat} (ho : ReturnsElements op t) (h : reducePrologue c red (.num t) op max 1 = true) :
    TakesValues red t := by
  unfold reducePrologue at h
  simp only [Bool.and_eq_true, reduceFits, ho 1] at h
  exact plain_iff.1 (hreduce_plain 1 h.1.1.1.2)

/-- **C78.** Whatever the callables are, `reduce_op` must take two plain values as well, unless the width is 1 and there is no alignment
prologue. (It is documented to be called with simd objects.) -/
theorem transformReduce_takes_values (hs : i.size ≠ 1) (h : transformReduceCompiles c i red (.num t) op = true) : TakesValues red t := by
  simp only [transformReduceCompiles, Bool.and_eq_true, if_neg hs] at h
  exact plain_iff.1 (hreduce_plain _ h.1.2.1.1.1)

private theorem prologue_ok (ho : ReturnsElements op t) (hr : TakesSimds red t) (hp : hreduceCompiles.plain red (.num t) = true)
    (max : Nat) : ∀ k size, max - size = k → reducePrologue c red (.num t) op max size = true := by
  intro k
  induction k using Nat.strongRecOn with
  | _ k ih =>
    intro size hk
    unfold reducePrologue
    simp only [Bool.and_eq_true]
    refine ⟨⟨?_, ?_⟩, ?_⟩
    · simp [reduceFits, ho size, hreduce_ok hr hp, fits, S, c.bc_same]
    · have := hr 1
      simp only [S, this, fitsRes]
      exact fits_self c _ 1
    · split
      · exact ih (max - size * 2) (by omega) _ rfl
      · rfl

private theorem red_fits (hr : TakesSimds red t) (w : Nat) :
    fitsRes c (red (S (.num t) w) (S (.num t) w)) (S (.num t) w) = true := by
  have := hr w
  simp only [S, this, fitsRes]
  exact fits_self c _ w

private theorem red_subscript (hr : TakesSimds red t) (w : Nat) : subscript (red (S (.num t) w) (S (.num t) w)) = true := by
  have := hr w
  simp [S, this, subscript]

private theorem op_fits (ho : ReturnsElements op t) (w : Nat) : fitsRes c (op w) (S (.num t) w) = true := by
  rw [ho w]; exact fits_self c _ w

private theorem call_fits (ho : ReturnsElements op t) (hr : TakesSimds red t) (w : Nat) :
    fitsRes c (call2 red (S (.num t) w) (op w)) (S (.num t) w) = true := by
  rw [ho w]; exact red_fits hr w

private theorem epilogueAcc_ok (ho : ReturnsElements op t) (hr : TakesSimds red t) (hp : hreduceCompiles.plain red (.num t) = true)
    (s : Nat) (hs : 0 < s) : reduceEpilogueAcc c red (.num t) op s = true := by
  induction s using Nat.strongRecOn with
  | _ s ih =>
    unfold reduceEpilogueAcc
    rw [call_fits ho hr]
    split
    · have : s = 1 := by omega
      subst this
      simp [red_subscript hr]
    · simp [hreduce_ok hr hp, red_subscript hr, red_fits hr, ih (s / 2) (by omega) (by omega)]

private theorem epilogue_ok (ho : ReturnsElements op t) (hr : TakesSimds red t) (hp : hreduceCompiles.plain red (.num t) = true)
    (s : Nat) (hs : 0 < s) : reduceEpilogue c red (.num t) op s = true := by
  induction s using Nat.strongRecOn with
  | _ s ih =>
    unfold reduceEpilogue
    rw [op_fits ho]
    split
    · have : s = 1 := by omega
      subst this
      simp [red_subscript hr]
    · simp [hreduce_ok hr hp, red_subscript hr, red_fits hr, ih (s / 2) (by omega) (by omega),
        epilogueAcc_ok ho hr hp (s / 2) (by omega)]

private theorem bitCeil_half_pos {n : Nat} (h : 1 < n) : 0 < stdBitCeil n / 2 := by
  have : 0 < 2 ^ Nat.log2 (n - 1) := Nat.two_pow_pos _
  simp only [stdBitCeil, if_neg (show ¬ n ≤ 1 by omega), Nat.pow_succ]
  omega

/-- **C78, C48.** With a `transform_op` that returns elements of one type, `transform_reduce` compiles exactly if that is the type of
`init` and `reduce_op` takes plain values too, for every policy. So calls that would have to convert elements to the type of
`init` are rejected. -/
theorem transformReduce_types (hi : 0 < i.size) (ho : ReturnsElements op u) (hr : TakesSimds red t) :
    transformReduceCompiles c i red (.num t) op = true ↔ u = t ∧ (SingleElements i ∨ TakesValues red t) := by
  constructor
  · intro h
    have hu : u = t := by
      rcases transformReduce_single_type h with h | ⟨a, h, _⟩
      · rw [ho 1] at h; simpa using (Ty.simd.inj (Option.some.inj h)).1
      · rw [ho 1] at h; simp at h
    subst hu
    refine ⟨rfl, ?_⟩
    by_cases hs : i.size = 1
    · by_cases hm : i.prologueMax = []
      · exact .inl ⟨hs, hm⟩
      · right
        simp only [transformReduceCompiles, Bool.and_eq_true, List.all_eq_true] at h
        obtain ⟨m, ms, hms⟩ := List.exists_cons_of_ne_nil hm
        exact prologue_plain ho (h.1.1.1.1.1.2 m (by simp [hms]))
    · exact .inr (transformReduce_takes_values hs h)
  · rintro ⟨rfl, h⟩
    simp only [transformReduceCompiles, Bool.and_eq_true]
    by_cases hp : hreduceCompiles.plain red (.num u) = true
    · refine ⟨⟨⟨⟨⟨⟨⟨rfl, op_fits ho 1, red_fits hr 1⟩, ?_⟩, ?_⟩, op_fits ho _⟩, call_fits ho hr _⟩, ?_⟩, ?_⟩
      · simp only [List.all_eq_true]
        exact fun m _ => prologue_ok ho hr hp m _ 1 rfl
      · split
        · rw [op_fits ho, call_fits ho hr, red_fits hr, ho i.size]; simp [S]
        · rfl
      · split
        · rename_i hs
          rw [hs]; exact red_subscript hr 1
        · have hl := bitCeil_half_pos (n := i.size) (by omega)
          simp only [Bool.and_eq_true]
          refine ⟨⟨⟨hreduce_ok hr hp _, red_subscript hr 1⟩, ?_⟩, epilogueAcc_ok ho hr hp _ hl⟩
          split
          · rename_i hlo
            rw [← hlo]; exact red_fits hr _
          · simp [hreduce_ok hr hp, red_fits hr]
      · split
        · rename_i hl
          exact epilogue_ok ho hr hp _ hl
        · rfl
    · obtain ⟨hs, hm⟩ : SingleElements i := h.resolve_right fun h => hp (plain_iff.2 h)
      have hl : stdBitCeil 1 / 2 = 0 := rfl
      refine ⟨⟨⟨⟨⟨⟨⟨rfl, op_fits ho 1, red_fits hr 1⟩, ?_⟩, ?_⟩, op_fits ho _⟩, call_fits ho hr _⟩, ?_⟩, ?_⟩
      · simp [hm]
      · split
        · rw [op_fits ho, call_fits ho hr, red_fits hr, ho i.size]; simp [S]
        · rfl
      · rw [if_pos hs, hs]; exact red_subscript hr 1
      · rw [hs, hl]; rfl

private theorem binaryOp_takesSimds (c : Convs) (t : Num) : TakesSimds (binaryOp c) t := fun w => by simp [binaryOp]
private theorem binaryOp_takesValues (c : Convs) (t : Num) : TakesValues (binaryOp c) t := ⟨.num t, by simp [binaryOp], rfl⟩

/-- **C78, C48.** `reduce` with `std::plus` compiles exactly if `init` has the element type of the range. -/
theorem reduce_types (hi : 0 < i.size) {elem : Num} : reduceCompiles c i (binaryOp c) (.num t) (.num elem) = true ↔ elem = t := by
  exact (transformReduce_types (u := elem) hi (fun w => rfl) (binaryOp_takesSimds c t)).trans (by simp [binaryOp_takesValues])

/-- **C78, C48.** The same with another operation that takes simds and plain values. -/
theorem reduce_types_op (hi : 0 < i.size) {elem : Num} (hr : TakesSimds red t) (hv : TakesValues red t) :
    reduceCompiles c i red (.num t) (.num elem) = true ↔ elem = t := by
  exact (transformReduce_types (u := elem) hi (fun w => rfl) hr).trans (by simp [hv])

private theorem binaryOp_one {a b : Num} {r : Ty} (h : binaryOp c (S (.num a) 1) (S (.num b) 1) = some r) :
    a = b ∧ r = S (.num a) 1 := by
  have hd : deduce 1 = .scalar := rfl
  unfold binaryOp at h
  split at h
  · rename_i h'
    simp only [S] at h h' ⊢
    exact ⟨by simpa using (Ty.simd.inj h').1, by simpa using h.symm⟩
  · rename_i h'
    have h1 : fits c (S (.num b) 1) (S (.num a) 1) = false := by
      cases hf : fits c (S (.num b) 1) (S (.num a) 1) with
      | false => rfl
      | true => exact absurd (by rw [fits_one hf]) h'
    have h2 : fits c (S (.num a) 1) (S (.num b) 1) = false := by
      cases hf : fits c (S (.num a) 1) (S (.num b) 1) with
      | false => rfl
      | true => exact absurd (by rw [fits_one hf]) h'
    simp [h1, h2] at h

/-- **C78, C48.** The inner product compiles exactly if both ranges have elements of the type of `init`. -/
theorem innerProduct_types (hi : 0 < i.size) {e1 e2 : Num} :
    innerProductCompiles c i (.num t) (.num e1) (.num e2) = true ↔ e1 = t ∧ e2 = t := by
  unfold innerProductCompiles
  constructor
  · intro h
    rcases transformReduce_single_type h with h | ⟨a, h, _⟩
    · simp only [isVectorizable, isArithmetic, reduceCtorEq, if_false, Bool.and_true, if_true] at h
      obtain ⟨rfl, h2⟩ := binaryOp_one h
      have : t = e1 := by simpa [S] using (Ty.simd.inj h2).1
      exact ⟨this.symm, this.symm⟩
    · simp only [isVectorizable, isArithmetic, reduceCtorEq, if_false, Bool.and_true, if_true] at h
      obtain ⟨_, h2⟩ := binaryOp_one h
      simp [S] at h2
  · rintro ⟨rfl, rfl⟩
    refine (transformReduce_types (u := e2) hi (fun w => ?_) (binaryOp_takesSimds c e2)).2 ⟨rfl, .inr (binaryOp_takesValues c e2)⟩
    simp [isVectorizable, isArithmetic, binaryOp, S]

/-- **C78.** `reduce` and the inner product do not compile for elements that no simd can have, like `bool`. -/
theorem reduce_vectorizable {elem : Ty} (h : reduceCompiles c i red (.num t) elem = true) : isVectorizable elem = true := by
  by_contra hv
  rcases transformReduce_single_type h with h | ⟨a, h, _⟩ <;> simp [hv] at h

theorem innerProduct_vectorizable {e1 e2 : Ty} (h : innerProductCompiles c i (.num t) e1 e2 = true) :
    isVectorizable e1 = true ∧ isVectorizable e2 = true := by
  by_contra hv
  rw [← Bool.and_eq_true] at hv
  rcases transformReduce_single_type h with h | ⟨a, h, _⟩ <;> simp only [hv] at h <;> simp at h

/-- **C78.** With an alignment prologue the result of `transform_op` for single elements must be a simd: a plain value, which does
without prologue, is not enough. -/
theorem transformReduce_prologue_type (hp : i.prologueMax ≠ []) (h : transformReduceCompiles c i red (.num t) op = true) :
    op 1 = some (.simd (.num t) .scalar) := by
  rcases transformReduce_single_type h with h1 | ⟨a, h1, _⟩
  · exact h1
  · simp only [transformReduceCompiles, Bool.and_eq_true, List.all_eq_true] at h
    obtain ⟨max, hm⟩ := List.exists_mem_of_ne_nil _ hp
    have := h.1.1.1.1.1.2 max hm
    unfold reducePrologue at this
    simp [reduceFits, h1] at this

/-! ### the theorems are about something, and their conditions are needed -/

/-- Conversions in which everything converts to everything: the theorems do not depend on them. -/
def everything : Convs := ⟨fun _ _ => true, fun _ _ => true, fun _ => rfl⟩

/-- `int` and `long long`. -/
def AlgoTypes.i32 : Num := ⟨0, 4, 4, false⟩
def AlgoTypes.i64 : Num := ⟨1, 8, 8, false⟩

example : transformWidths ⟨6, 2, false, [8]⟩ = [6, 1, 1, 2, 4, 6, 6, 4, 2, 1, 1] := by
  have p1 : transformPrologueWidths 8 1 = [1, 2, 4] := by
    rw [transformPrologueWidths, transformPrologueWidths, transformPrologueWidths]; rfl
  have e6 : transformEpilogueWidths 6 = [4, 2, 1, 1] := by
    have h2 : transformEpilogueWidths 2 = [1, 1] := by rw [transformEpilogueWidths]; rfl
    have h4 : transformEpilogueWidths 4 = [2, 1, 1] := by
      rw [transformEpilogueWidths]; simp [show stdBitCeil 4 / 2 = 2 from rfl, h2]
    rw [transformEpilogueWidths]; simp [show stdBitCeil 6 / 2 = 4 from rfl, h4]
  rw [transformWidths]
  simp [p1, e6]
example : transformCompiles everything ⟨4, 1, false, []⟩ (.num i32) (fun w => some (S (.num i32) w)) = true :=
  (transform_types fun _ => rfl).2 rfl
example : reduceCompiles everything ⟨6, 2, false, [8]⟩ (binaryOp everything) (.num i32) (.num i32) = true := (reduce_types (by decide)).2 rfl

/-- The conversions between `int` and `long long`. -/
def widening : Convs where
  conv u t := decide (u = t ∨ u = .num i32 ∧ t = .num i64)
  bc u t := decide (u = t ∨ u = .num i32 ∧ t = .num i64)
  bc_same t := by simp

/-- **C78.** A binary operator of `std::simd` is symmetric in its types, and of two simd operands with different types one has the type of the
result and the other one converts to it implicitly. -/
theorem binaryOp_converts {x y r : Ty} (h : binaryOp c x y = some r) :
    binaryOp c y x = some r ∧ (x = r ∨ fits c x r = true) ∧ (y = r ∨ fits c y r = true) := by
  unfold binaryOp at h ⊢
  by_cases hxy : x = y
  · subst hxy
    rw [if_pos rfl] at h ⊢
    refine ⟨h, ?_⟩
    have : x = r := by split at h <;> simp_all
    exact ⟨.inl this, .inl this⟩
  · rw [if_neg hxy] at h
    rw [if_neg (Ne.symm hxy)]
    cases h1 : fits c y x <;> cases h2 : fits c x y <;> simp_all

-- `int` and `long long`
example : binaryOp widening (S (.num i32) 4) (S (.num i64) 4) = some (S (.num i64) 4) := by decide +kernel
example := binaryOp_converts (c := widening) (x := S (.num i64) 4) (y := S (.num i32) 4) (r := S (.num i64) 4) (by decide +kernel)

/-- **C78 (the sum of a range of `int` as `long long`).** Does not compile, not even with `static_cast`-like conversions between all simd
types. -/
theorem reduce_wider_init (hi : 0 < i.size) : reduceCompiles c i (binaryOp c) (.num i64) (.num i32) = false := by
  rw [Bool.eq_false_iff]
  intro h
  exact absurd ((reduce_types hi).1 h) (by decide)

-- a plain value from `transform_op`, with and without prologue
example : transformReduceCompiles everything ⟨1, 1, false, []⟩ (binaryOp everything) (.num i32) (fun _ => some (.num i32)) = true ∧
    transformReduceCompiles everything ⟨1, 1, false, [1]⟩ (binaryOp everything) (.num i32) (fun _ => some (.num i32)) = false := by
  constructor
  · decide +kernel
  · rw [Bool.eq_false_iff]
    intro h
    exact absurd (transformReduce_prologue_type (by simp) h) (by simp)

/-- A `reduce_op` that takes simds only, as documented. -/
def simdsOnly : BinTy := fun x y => match x with
  | .simd _ _ => if x = y then some x else none
  | _ => none

/-- **C78 (`reduce_op` must take plain values).** A `reduce_op` for simd objects does not compile, although `transform_reduce` documents to
call it with simd objects. -/
theorem reduce_simds_only (hi : 1 < i.size) : TakesSimds simdsOnly t ∧ reduceCompiles c i simdsOnly (.num t) (.num t) = false := by
  refine ⟨fun w => by simp [simdsOnly], ?_⟩
  rw [Bool.eq_false_iff]
  intro h
  obtain ⟨r, h1, _⟩ := transformReduce_takes_values (by omega) h
  simp [simdsOnly] at h1

/-- **C78 (the condition on `transform_op` is needed).** A `transform_op` that converts `int` to `long long` (the type of `init`) for single
elements only is accepted, since larger simds convert implicitly. -/
theorem transformReduce_mixed : transformReduceCompiles widening ⟨4, 1, false, [4]⟩ (binaryOp widening) (.num i64)
    (fun w => some (S (.num (if w = 1 then i64 else i32)) w)) = true := by
  have hh : ∀ t n, hreduceCompiles (binaryOp widening) (.num t) n = true := fun t n =>
    hreduce_ok (binaryOp_takesSimds _ t) (plain_iff.2 (binaryOp_takesValues _ t)) n
  have hp : reducePrologue widening (binaryOp widening) (.num i64) (fun w => some (S (.num (if w = 1 then i64 else i32)) w)) 4 1 = true := by
    rw [reducePrologue, reducePrologue, reducePrologue]
    simp only [reduceFits, S, hh]
    decide +kernel
  have ha : ∀ w, w = 1 ∨ w = 2 → reduceEpilogueAcc widening (binaryOp widening) (.num i64)
      (fun w => some (S (.num (if w = 1 then i64 else i32)) w)) w = true := by
    rintro w (rfl | rfl)
    · rw [reduceEpilogueAcc]; decide +kernel
    · rw [reduceEpilogueAcc, reduceEpilogueAcc]
      simp only [hh]
      decide +kernel
  have he : reduceEpilogue widening (binaryOp widening) (.num i64)
      (fun w => some (S (.num (if w = 1 then i64 else i32)) w)) 2 = true := by
    rw [reduceEpilogue, reduceEpilogue]
    simp only [hh, ha _ (.inl rfl)]
    decide +kernel
  simp only [transformReduceCompiles, hh, hp, ha _ (.inr rfl), he, List.all_cons, List.all_nil, show stdBitCeil 4 / 2 = 2 from rfl]
  decide +kernel

/-! ## The theorems applied to concrete data -/

private theorem oneWide : transformCompiles everything ⟨1, 1, false, []⟩ (.num i32) (fun w => some (S (.num i32) w)) = true :=
  (transform_types fun _ => rfl).2 rfl
private theorem simdsThenValues : transformReduceCompiles everything ⟨6, 2, false, [8]⟩ (binaryOp everything) (.num i32)
    (fun w => some (S (.num i32) w)) = true :=
  (transformReduce_types (by decide) (fun _ => rfl) (binaryOp_takesSimds _ _)).2 ⟨rfl, Or.inr (binaryOp_takesValues _ _)⟩
private theorem reduceOk : reduceCompiles everything ⟨6, 2, false, [8]⟩ (binaryOp everything) (.num i32) (.num i32) = true :=
  (reduce_types (by decide)).2 rfl
private theorem innerOk : innerProductCompiles everything ⟨6, 2, false, [8]⟩ (.num i32) (.num i32) (.num i32) = true :=
  (innerProduct_types (by decide)).2 ⟨rfl, rfl⟩

example := transform_single_type oneWide
example := transformReduce_single_type simdsThenValues
example := transformReduce_takes_values (by decide) simdsThenValues
example := transformReduce_types (c := everything) (i := ⟨6, 2, false, [8]⟩) (op := fun w => some (S (.num i64) w)) (u := i64) (t := i32)
  (by decide) (fun _ => rfl) (binaryOp_takesSimds everything i32)
example := reduce_types_op (c := everything) (i := ⟨6, 2, false, [8]⟩) (t := i32) (by decide) (elem := i64)
  (binaryOp_takesSimds everything i32) (binaryOp_takesValues everything i32)
example := innerProduct_types (c := everything) (i := ⟨6, 2, false, [8]⟩) (t := i32) (by decide) (e1 := i32) (e2 := i64)
example := reduce_vectorizable reduceOk
example := innerProduct_vectorizable innerOk
example := reduce_wider_init (c := everything) (i := ⟨6, 2, false, [8]⟩) (by decide)
example := reduce_simds_only (c := everything) (i := ⟨6, 2, false, [8]⟩) (t := i32) (by decide)

end Vir
namespace Vir.AlgoTypes
open Vir.Traits Vir.Casts
variable {c : Convs} {i : Inst} {t : Num} {op : Nat → Option Ty}

/-- The widths at which `transform` may invoke its operation: the full width, single elements, the powers of two below the full width for
what is left over, unless the range size is assumed to match, and the powers of two below the bound of an alignment prologue. -/
def UsedWidth (i : Inst) (w : Nat) : Prop :=
  w = i.size ∨ w = 1 ∨ (∃ k, w = 2 ^ k) ∧ ((i.assumeMatchingSize = false ∧ w < i.size) ∨ ∃ max ∈ i.prologueMax, w < max)

private theorem mem_prologue (max : Nat) : ∀ d a w, max - 2 ^ a ≤ d →
    (w ∈ transformPrologueWidths max (2 ^ a) ↔ ∃ k, a ≤ k ∧ w = 2 ^ k ∧ (k = a ∨ w < max)) := by
  intro d
  induction d with
  | zero =>
    intro a w hd
    unfold transformPrologueWidths
    rw [dif_neg (by have := Nat.two_pow_pos a; omega), List.mem_singleton]
    constructor
    · rintro rfl; exact ⟨a, Nat.le_refl _, rfl, .inl rfl⟩
    · rintro ⟨k, hk, rfl, rfl | h⟩
      · rfl
      · have := Nat.pow_le_pow_right (n := 2) (by decide) hk
        omega
  | succ d ih =>
    intro a w hd
    have hp := Nat.two_pow_pos a
    unfold transformPrologueWidths
    split
    · rename_i h
      rw [List.mem_cons, ← Nat.pow_succ, ih (a + 1) w (by rw [Nat.pow_succ]; omega)]
      constructor
      · rintro (rfl | ⟨k, hk, rfl, h'⟩)
        · exact ⟨a, Nat.le_refl _, rfl, .inl rfl⟩
        · refine ⟨k, by omega, rfl, .inr ?_⟩
          rcases h' with rfl | h'
          · rw [Nat.pow_succ]; exact h.2
          · exact h'
      · rintro ⟨k, hk, rfl, h'⟩
        by_cases hka : k = a
        · left; rw [hka]
        · exact .inr ⟨k, by omega, rfl, .inr (h'.resolve_left hka)⟩
    · rename_i h
      rw [List.mem_singleton]
      constructor
      · rintro rfl; exact ⟨a, Nat.le_refl _, rfl, .inl rfl⟩
      · rintro ⟨k, hk, rfl, rfl | h'⟩
        · rfl
        · by_cases hka : k = a
          · rw [hka]
          · have := Nat.pow_le_pow_right (n := 2) (by decide) (show a + 1 ≤ k by omega)
            rw [Nat.pow_succ] at this
            omega

private theorem mem_epilogue (v0 : Nat) : ∀ w, w ∈ transformEpilogueWidths v0 ↔ (∃ k, w = 2 ^ k) ∧ w < v0 := by
  induction v0 using Nat.strongRecOn with
  | _ v0 ih =>
    intro w
    unfold transformEpilogueWidths
    split
    · rename_i h
      constructor
      · intro h; cases h
      · rintro ⟨⟨k, rfl⟩, hk⟩
        have := Nat.two_pow_pos k
        omega
    · rename_i h
      split
      · rename_i h2
        subst h2
        constructor
        · intro hw
          have : w = 1 := by simpa using hw
          subst this
          exact ⟨⟨0, rfl⟩, by decide⟩
        · rintro ⟨⟨k, rfl⟩, hk⟩
          have hp := Nat.two_pow_pos k
          have : 2 ^ k = 1 := by omega
          rw [this]
          exact .head _
      · rename_i h2
        have hlt : stdBitCeil v0 / 2 < v0 := ForEach.half_bitCeil_lt (by omega)
        have hc : stdBitCeil v0 / 2 = 2 ^ Nat.log2 (v0 - 1) := by
          simp only [stdBitCeil, if_neg (show ¬ v0 ≤ 1 by omega), Nat.pow_succ]
          omega
        have hle := Nat.log2_self_le (n := v0 - 1) (by omega)
        have hup := Nat.lt_log2_self (n := v0 - 1)
        rw [Nat.pow_succ] at hup
        simp only [List.mem_cons]
        have key : (w ∈ if stdBitCeil v0 / 2 > 1 then transformEpilogueWidths (stdBitCeil v0 / 2) else []) ↔
            (∃ k, w = 2 ^ k) ∧ w < stdBitCeil v0 / 2 := by
          split
          · exact ih _ hlt w
          · constructor
            · intro h; cases h
            · rintro ⟨⟨k, rfl⟩, hk⟩
              have := Nat.two_pow_pos k
              omega
        rw [key, hc]
        constructor
        · rintro (rfl | ⟨h, hw⟩)
          · exact ⟨⟨_, rfl⟩, by omega⟩
          · exact ⟨h, by omega⟩
        · rintro ⟨⟨k, rfl⟩, hk⟩
          by_cases hkl : k = Nat.log2 (v0 - 1)
          · left; rw [hkl]
          · right
            refine ⟨⟨k, rfl⟩, Nat.pow_lt_pow_right (by decide) ?_⟩
            by_contra hge
            have := Nat.pow_le_pow_right (n := 2) (by decide) (show Nat.log2 (v0 - 1) + 1 ≤ k by omega)
            rw [Nat.pow_succ] at this
            omega

/-- **C78.** Whatever `op` is, `transform` compiles exactly if at every width it may be invoked with, its result converts to the simd of
that width of the element type of the output range. -/
theorem transform_compiles_iff : transformCompiles c i (.num t) op = true ↔
    ∀ w, UsedWidth i w → ∃ s, op w = some s ∧ fits c s (S (.num t) w) = true := by
  have hres : ∀ w, fitsRes c (op w) (S (.num t) w) = true ↔ ∃ s, op w = some s ∧ fits c s (S (.num t) w) = true := by
    intro w
    cases op w <;> simp [fitsRes]
  have hmem : ∀ w, w ∈ transformWidths i ↔ UsedWidth i w := by
    intro w
    have hpro : (w ∈ i.prologueMax.flatMap fun max => transformPrologueWidths max 1) ↔
        ∃ max ∈ i.prologueMax, (∃ k, w = 2 ^ k ∧ (k = 0 ∨ w < max)) := by
      rw [List.mem_flatMap]
      refine exists_congr fun max => and_congr_right fun _ => ?_
      rw [show (1 : Nat) = 2 ^ 0 from rfl, mem_prologue max _ 0 w (Nat.le_refl _)]
      simp
    have hepi : (w ∈ if decide (i.size > 1) && !i.assumeMatchingSize then transformEpilogueWidths i.size else []) ↔
        i.assumeMatchingSize = false ∧ (∃ k, w = 2 ^ k) ∧ w < i.size := by
      split
      · rename_i h
        simp only [Bool.and_eq_true, decide_eq_true_eq, Bool.not_eq_true'] at h
        rw [mem_epilogue]
        simp [h.2]
      · rename_i h
        constructor
        · intro h; cases h
        · rintro ⟨ha, ⟨k, rfl⟩, hk⟩
          have := Nat.two_pow_pos k
          simp [ha, show 1 < i.size by omega] at h
    have hun : (w ∈ if i.unrollBy > 1 then [i.size] else []) → w = i.size := by
      split <;> simp
    unfold transformWidths UsedWidth
    rw [List.mem_append, List.mem_append, List.mem_append, List.mem_append, hpro, hepi]
    simp only [List.mem_cons, List.not_mem_nil, or_false]
    constructor
    · intro h
      rcases h with (((h | ⟨max, hm, k, rfl, h⟩) | h) | h) | h
      · rcases h with h | h
        · exact .inl h
        · exact .inr (.inl h)
      · rcases h with rfl | h
        · exact .inr (.inl rfl)
        · exact .inr (.inr ⟨⟨k, rfl⟩, .inr ⟨max, hm, h⟩⟩)
      · exact .inl (hun h)
      · exact .inl h
      · exact .inr (.inr ⟨h.2.1, .inl ⟨h.1, h.2.2⟩⟩)
    · rintro (h | h | ⟨⟨k, rfl⟩, ⟨ha, h⟩ | ⟨max, hm, h⟩⟩)
      · exact .inl (.inr h)
      · exact .inl (.inl (.inl (.inl (.inr h))))
      · exact .inr ⟨ha, ⟨k, rfl⟩, h⟩
      · exact .inl (.inl (.inl (.inr ⟨max, hm, k, rfl, .inr h⟩)))
  simp only [transformCompiles, isVectorizable, isArithmetic, Bool.and_eq_true, List.all_eq_true, hres, hmem]
  simp

/-- Width 3 is not used for a width of 6: an operation that does not accept it is fine; width 4 is, for what is left over. -/
example : transformCompiles everything ⟨6, 1, false, []⟩ (.num i32) (fun w => if w = 3 then none else some (S (.num i32) w)) = true :=
  transform_compiles_iff.2 fun w h => by
    have h3 : w ≠ 3 := by
      rintro rfl
      rcases h with h | h | ⟨⟨k, h⟩, -⟩
      · cases h
      · cases h
      · match k, h with
        | 0, h => cases h
        | k + 1, h => rw [Nat.pow_succ] at h; omega
    exact ⟨_, if_neg h3, by simp [fits, S, implicit]⟩
example : ¬ transformCompiles everything ⟨6, 1, false, []⟩ (.num i32) (fun w => if w = 4 then none else some (S (.num i32) w)) = true :=
  fun h => by
    obtain ⟨s, hs, -⟩ := transform_compiles_iff.1 h 4 (.inr (.inr ⟨⟨2, rfl⟩, .inl ⟨rfl, by decide⟩⟩))
    simp at hs

section Reduce
open Spec
variable {red : BinTy}

/-- A generic `reduce_op`, like `std::plus<>`: it takes two simds of any type and two plain values of any type. -/
def TakesAnything (red : BinTy) : Prop := ∀ u, TakesSimds red u ∧ TakesValues red u

/-- What `transform_op` returns are plain values and simds of plain values. -/
def ReturnsValues (op : Nat → Option Ty) : Prop := ∀ w u a, op w = some (.simd u a) → ∃ n, u = .num n

/-- The widths with which `transform_op` is invoked on what an alignment prologue with at most `max` elements processes: the powers of
two up to the first one that is at least `max`. -/
def PrologueWidth (max w : Nat) : Prop := ∃ k, w = 2 ^ k ∧ (k = 0 ∨ w < 2 * max)

private theorem hreduce_any (hr : TakesAnything red) (u : Num) (n : Nat) : hreduceCompiles red (.num u) n = true :=
  hreduce_ok (hr u).1 (plain_iff.2 (hr u).2) n

private theorem reduceFits_iff (hr : TakesAnything red) (ho : ReturnsValues op) (w : Nat) :
    reduceFits c red (op w) w (S (.num t) 1) = true ↔
      ∃ u, op w = some (.simd (.num u) (deduce w)) ∧ c.bc (.num u) (.num t) = true := by
  unfold reduceFits
  cases h : op w with
  | none => simp
  | some s =>
    cases s with
    | simd u a =>
      obtain ⟨n, rfl⟩ := ho w u a h
      simp only [hreduce_any hr, Bool.and_true, Bool.and_eq_true, decide_eq_true_eq, fits, S]
      constructor
      · rintro ⟨rfl, h'⟩; exact ⟨n, rfl, h'⟩
      · rintro ⟨u, hu, h'⟩
        injection hu with hu
        injection hu with h1 h2
        injection h1 with h1
        subst h1
        exact ⟨h2, h'⟩
    | _ => simp

private theorem reducePrologue_iff (hr : TakesAnything red) (ho : ReturnsValues op) (max : Nat) : ∀ d a, max - 2 ^ a ≤ d →
    (reducePrologue c red (.num t) op max (2 ^ a) = true ↔ ∀ k, a ≤ k → (k = a ∨ 2 ^ k < 2 * max) →
      ∃ u, op (2 ^ k) = some (.simd (.num u) (deduce (2 ^ k))) ∧ c.bc (.num u) (.num t) = true) := by
  intro d
  induction d with
  | zero =>
    intro a hd
    have hp := Nat.two_pow_pos a
    unfold reducePrologue
    rw [dif_neg (by omega), Bool.and_true, red_fits (hr t).1, Bool.and_true, reduceFits_iff hr ho]
    constructor
    · intro h k hk h'
      rcases h' with rfl | h'
      · exact h
      · rcases Nat.eq_or_lt_of_le hk with rfl | hk
        · exact h
        · have := Nat.pow_le_pow_right (n := 2) (by decide) (show a + 1 ≤ k by omega)
          rw [Nat.pow_succ] at this
          omega
    · intro h; exact h a (Nat.le_refl _) (.inl rfl)
  | succ d ih =>
    intro a hd
    have hp := Nat.two_pow_pos a
    unfold reducePrologue
    rw [red_fits (hr t).1, Bool.and_true, Bool.and_eq_true, reduceFits_iff hr ho]
    split
    · rename_i h
      rw [← Nat.pow_succ, ih (a + 1) (by rw [Nat.pow_succ]; omega)]
      constructor
      · rintro ⟨h1, h2⟩ k hk h'
        by_cases hka : k = a
        · rw [hka]; exact h1
        · exact h2 k (by omega) (.inr (h'.resolve_left hka))
      · intro h1
        refine ⟨h1 a (Nat.le_refl _) (.inl rfl), fun k hk h' => h1 k (by omega) (.inr ?_)⟩
        rcases h' with rfl | h'
        · rw [Nat.pow_succ]; omega
        · exact h'
    · rename_i h
      constructor
      · rintro ⟨h1, -⟩ k hk h'
        rcases h' with rfl | h'
        · exact h1
        · rcases Nat.eq_or_lt_of_le hk with rfl | hk
          · exact h1
          · have := Nat.pow_le_pow_right (n := 2) (by decide) (show a + 1 ≤ k by omega)
            rw [Nat.pow_succ] at this
            omega
      · intro h1; exact ⟨h1 a (Nat.le_refl _) (.inl rfl), rfl⟩

private theorem half_pow (a : Nat) : 2 ^ (a + 1) / 2 = 2 ^ a := by rw [Nat.pow_succ]; omega

private theorem epilogueAcc_iff (hr : TakesAnything red) (a : Nat) :
    reduceEpilogueAcc c red (.num t) op (2 ^ a) = true ↔
      ∀ k, k ≤ a → fitsRes c (call2 red (S (.num t) (2 ^ k)) (op (2 ^ k))) (S (.num t) (2 ^ k)) = true := by
  induction a with
  | zero =>
    unfold reduceEpilogueAcc
    rw [dif_pos (by decide), show (2 : Nat) ^ 0 = 1 from rfl, red_subscript (hr t).1, Bool.and_true]
    constructor
    · intro h k hk
      have : k = 0 := by omega
      subst this; exact h
    · intro h; exact h 0 (Nat.le_refl _)
  | succ a ih =>
    have hp := Nat.two_pow_pos a
    unfold reduceEpilogueAcc
    rw [dif_neg (by rw [Nat.pow_succ]; omega), half_pow, hreduce_any hr, red_subscript (hr t).1, red_fits (hr t).1]
    simp only [Bool.true_and]
    rw [Bool.and_eq_true, ih]
    constructor
    · rintro ⟨h1, h2⟩ k hk
      by_cases hka : k = a + 1
      · rw [hka]; exact h1
      · exact h2 k (by omega)
    · intro h
      exact ⟨h _ (Nat.le_refl _), fun k hk => h k (by omega)⟩

private theorem epilogue_iff (hr : TakesAnything red) (a : Nat) (hacc : reduceEpilogueAcc c red (.num t) op (2 ^ a) = true) :
    reduceEpilogue c red (.num t) op (2 ^ a) = true ↔ ∀ k, k ≤ a → fitsRes c (op (2 ^ k)) (S (.num t) (2 ^ k)) = true := by
  induction a with
  | zero =>
    unfold reduceEpilogue
    rw [dif_pos (by decide), show (2 : Nat) ^ 0 = 1 from rfl, red_subscript (hr t).1, Bool.and_true]
    constructor
    · intro h k hk
      have : k = 0 := by omega
      subst this; exact h
    · intro h; exact h 0 (Nat.le_refl _)
  | succ a ih =>
    have hp := Nat.two_pow_pos a
    have hacc' : reduceEpilogueAcc c red (.num t) op (2 ^ a) = true :=
      (epilogueAcc_iff hr a).2 fun k hk => (epilogueAcc_iff hr (a + 1)).1 hacc k (by omega)
    unfold reduceEpilogue
    rw [dif_neg (by rw [Nat.pow_succ]; omega), half_pow, hreduce_any hr, red_subscript (hr t).1, red_fits (hr t).1, hacc']
    simp only [Bool.true_and, Bool.and_true]
    rw [Bool.and_eq_true, ih hacc']
    constructor
    · rintro ⟨h1, h2⟩ k hk
      by_cases hka : k = a + 1
      · rw [hka]; exact h1
      · exact h2 k (by omega)
    · intro h
      exact ⟨h _ (Nat.le_refl _), fun k hk => h k (by omega)⟩

/-- The result of `transform_op` at width `w` initializes an accumulator of that width, and so does what `reduce_op` makes of an
accumulator and it. -/
def Accumulates (c : Convs) (red : BinTy) (t : Num) (op : Nat → Option Ty) (w : Nat) : Prop :=
  ∃ s, op w = some s ∧ fits c s (S (.num t) w) = true ∧ ∃ r, red (S (.num t) w) s = some r ∧ fits c r (S (.num t) w) = true

private theorem accumulates_iff (w : Nat) : (fitsRes c (op w) (S (.num t) w) = true ∧
    fitsRes c (call2 red (S (.num t) w) (op w)) (S (.num t) w) = true) ↔ Accumulates c red t op w := by
  unfold Accumulates
  cases h : op w with
  | none => simp [fitsRes]
  | some s =>
    simp only [fitsRes, call2, Option.some.injEq]
    cases hh : red (S (.num t) w) s <;> simp [hh]

/-- **C78.** Whatever `transform_op` is, `transform_reduce` with a generic `reduce_op` compiles exactly if (1) the result for single
elements has the type of `init` or is a plain value that converts to it; (2) at the full width and at every power of two below it the
result can be accumulated; (3) with an alignment prologue, the results at the widths of the prologue are simds whose elements
convert to the type of `init`; and (4) with unrolling, the result at the full width is exactly the simd of the type of `init`. -/
theorem transformReduce_compiles_iff (hi : 0 < i.size) (hr : TakesAnything red) (ho : ReturnsValues op) :
    transformReduceCompiles c i red (.num t) op = true ↔
      (∃ s, op 1 = some s ∧ fits c s (S (.num t) 1) = true) ∧
      (∀ w, w = i.size ∨ (∃ k, w = 2 ^ k) ∧ w < i.size → Accumulates c red t op w) ∧
      (∀ max ∈ i.prologueMax, ∀ w, PrologueWidth max w →
        ∃ u, op w = some (.simd (.num u) (deduce w)) ∧ c.bc (.num u) (.num t) = true) ∧
      (1 < i.unrollBy → op i.size = some (S (.num t) i.size)) := by
  have hone : fitsRes c (op 1) (S (.num t) 1) = true ↔ ∃ s, op 1 = some s ∧ fits c s (S (.num t) 1) = true := by
    cases op 1 <;> simp [fitsRes]
  have hpro : (i.prologueMax.all fun max => reducePrologue c red (.num t) op max 1) = true ↔
      ∀ max ∈ i.prologueMax, ∀ w, PrologueWidth max w →
        ∃ u, op w = some (.simd (.num u) (deduce w)) ∧ c.bc (.num u) (.num t) = true := by
    rw [List.all_eq_true]
    refine forall_congr' fun max => forall_congr' fun _ => ?_
    rw [show (1 : Nat) = 2 ^ 0 from rfl, reducePrologue_iff hr ho max _ 0 (Nat.le_refl _)]
    constructor
    · rintro h w ⟨k, rfl, hk⟩; exact h k (Nat.zero_le _) hk
    · intro h k _ hk; exact h _ ⟨k, rfl, hk⟩
  have hun : (if i.unrollBy > 1 then fitsRes c (op i.size) (S (.num t) i.size) &&
      fitsRes c (call2 red (S (.num t) i.size) (op i.size)) (S (.num t) i.size) &&
      fitsRes c (red (S (.num t) i.size) (S (.num t) i.size)) (S (.num t) i.size) && decide (op i.size = some (S (.num t) i.size))
      else true) = true ↔ (1 < i.unrollBy → op i.size = some (S (.num t) i.size)) := by
    split
    · rename_i h
      simp only [Bool.and_eq_true, decide_eq_true_eq]
      constructor
      · intro h' _; exact h'.2
      · intro h'
        have h' := h' h
        have hf := fits_self c (.num t) i.size
        refine ⟨⟨⟨?_, ?_⟩, red_fits (hr t).1 _⟩, h'⟩
        · rw [h']; exact hf
        · rw [h']; exact red_fits (hr t).1 _
    · rename_i h
      exact ⟨fun _ h' => absurd h' h, fun _ => rfl⟩
  have hvec : isVectorizable (.num t) = true := rfl
  simp only [transformReduceCompiles]
  rw [Bool.and_eq_true, Bool.and_eq_true, Bool.and_eq_true, Bool.and_eq_true, Bool.and_eq_true, hun]
  simp only [Bool.and_eq_true, red_fits (hr t).1, hvec, hpro, hone, true_and, and_true, hreduce_any hr, red_subscript (hr t).1]
  by_cases hs : i.size = 1
  · have hl : stdBitCeil 1 / 2 = 0 := rfl
    have hsub := red_subscript (t := t) (hr t).1 1
    simp only [if_pos hs]
    rw [show S (.num t) i.size = S (.num t) 1 by rw [hs], hsub, hs, hl]
    have := accumulates_iff (c := c) (red := red) (t := t) (op := op) 1
    constructor
    · rintro ⟨⟨⟨⟨⟨⟨h1, h2⟩, h3⟩, h4⟩, h5⟩, -⟩, -⟩
      refine ⟨h1, ?_, h2, h3⟩
      rintro w (rfl | ⟨⟨k, rfl⟩, hk⟩)
      · exact this.1 ⟨h4, h5⟩
      · have := Nat.two_pow_pos k; omega
    · rintro ⟨h1, h2, h3, h4⟩
      have h5 := this.2 (h2 1 (.inl rfl))
      exact ⟨⟨⟨⟨⟨⟨h1, h3⟩, h4⟩, h5.1⟩, h5.2⟩, rfl⟩, rfl⟩
  · have hlo : stdBitCeil i.size / 2 = 2 ^ Nat.log2 (i.size - 1) := by
      simp only [stdBitCeil, if_neg (show ¬ i.size ≤ 1 by omega), Nat.pow_succ]
      omega
    have hle := Nat.log2_self_le (n := i.size - 1) (by omega)
    have hup := Nat.lt_log2_self (n := i.size - 1)
    have hw : ∀ k, k ≤ Nat.log2 (i.size - 1) ↔ 2 ^ k < i.size := by
      intro k
      constructor
      · intro h
        have := Nat.pow_le_pow_right (n := 2) (by decide) h
        omega
      · intro h
        by_contra hge
        have := Nat.pow_le_pow_right (n := 2) (by decide) (show Nat.log2 (i.size - 1) + 1 ≤ k by omega)
        omega
    have hif : (if stdBitCeil i.size / 2 = i.size - stdBitCeil i.size / 2 then
        fitsRes c (red (S (.num t) (stdBitCeil i.size / 2)) (S (.num t) (i.size - stdBitCeil i.size / 2))) (S (.num t) (stdBitCeil i.size / 2))
        else true && true) = true := by
      split
      · rename_i h
        rw [← h]; exact red_fits (hr t).1 _
      · rfl
    simp only [if_neg hs, Bool.and_eq_true, true_and, hif]
    rw [hlo, if_pos (Nat.two_pow_pos _)]
    have key : (reduceEpilogueAcc c red (.num t) op (2 ^ Nat.log2 (i.size - 1)) = true ∧
        reduceEpilogue c red (.num t) op (2 ^ Nat.log2 (i.size - 1)) = true) ↔
        ∀ w, (∃ k, w = 2 ^ k) ∧ w < i.size → Accumulates c red t op w := by
      constructor
      · rintro ⟨h1, h2⟩ w ⟨⟨k, rfl⟩, hk⟩
        exact (accumulates_iff _).1 ⟨(epilogue_iff hr _ h1).1 h2 k ((hw k).2 hk), (epilogueAcc_iff hr _).1 h1 k ((hw k).2 hk)⟩
      · intro h
        have h1 := (epilogueAcc_iff (c := c) (t := t) (op := op) hr (Nat.log2 (i.size - 1))).2 fun k hk =>
          ((accumulates_iff _).2 (h _ ⟨⟨k, rfl⟩, (hw k).1 hk⟩)).2
        exact ⟨h1, (epilogue_iff hr _ h1).2 fun k hk => ((accumulates_iff _).2 (h _ ⟨⟨k, rfl⟩, (hw k).1 hk⟩)).1⟩
    have := accumulates_iff (c := c) (red := red) (t := t) (op := op) i.size
    constructor
    · rintro ⟨⟨⟨⟨⟨⟨h1, h2⟩, h3⟩, h4⟩, h5⟩, h6⟩, h7⟩
      refine ⟨h1, ?_, h2, h3⟩
      rintro w (rfl | h)
      · exact this.1 ⟨h4, h5⟩
      · exact key.1 ⟨h6, h7⟩ w h
    · rintro ⟨h1, h2, h3, h4⟩
      have h5 := this.2 (h2 _ (.inl rfl))
      have h6 := key.2 fun w h => h2 w (.inr h)
      exact ⟨⟨⟨⟨⟨⟨h1, h3⟩, h4⟩, h5.1⟩, h5.2⟩, h6.1⟩, h6.2⟩

private theorem binaryOp_any (c : Convs) : TakesAnything (binaryOp c) := fun u => ⟨binaryOp_takesSimds c u, binaryOp_takesValues c u⟩

/-- A `transform_op` that takes no simd of width 3 is fine for width 6; one that takes no simd of width 2 is not, because of the
elements left over. -/
example : transformReduceCompiles everything ⟨6, 1, false, []⟩ (binaryOp everything) (.num i32)
    (fun w => if w = 3 then none else some (S (.num i32) w)) = true :=
  (transformReduce_compiles_iff (by decide) (binaryOp_any _) (by
    intro w u a h
    dsimp only at h
    split at h
    · cases h
    · exact ⟨i32, by cases h; rfl⟩)).2 ⟨⟨_, rfl, by decide +kernel⟩, by
      have key : ∀ w, w ≠ 3 → Accumulates everything (binaryOp everything) i32 (fun w => if w = 3 then none else some (S (.num i32) w)) w :=
        fun w h => ⟨_, if_neg h, fits_self _ _ _, _, binaryOp_takesSimds everything i32 w, fits_self _ _ _⟩
      rintro w (rfl | ⟨⟨k, rfl⟩, -⟩)
      · exact key 6 (by decide)
      · refine key _ fun h => ?_
        match k, h with
        | 0, h => cases h
        | k + 1, h => rw [Nat.pow_succ] at h; omega,
    fun _ h => absurd h List.not_mem_nil, fun h => absurd h (by decide)⟩
example : ¬ transformReduceCompiles everything ⟨6, 1, false, []⟩ (binaryOp everything) (.num i32)
    (fun w => if w = 2 then none else some (S (.num i32) w)) = true := fun h => by
  obtain ⟨-, h, -⟩ := (transformReduce_compiles_iff (by decide) (binaryOp_any _) (by
    intro w u a h
    dsimp only at h
    split at h
    · cases h
    · exact ⟨i32, by cases h; rfl⟩)).1 h
  obtain ⟨s, hs, -⟩ := h 2 (.inr ⟨⟨1, rfl⟩, by decide⟩)
  simp at hs

end Reduce

end Vir.AlgoTypes
