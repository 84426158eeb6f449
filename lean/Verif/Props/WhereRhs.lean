import Verif.Spec.WhereRhs
import Verif.Props.Where
import Verif.Props.SimdOps
import Verif.Props.Casts

/-!
# C85: right-hand sides of where expressions
-/

namespace Vir.WhereRhs
open Spec Simd

private theorem asSimd_ok {t : IntTy} (hv : ValidTy t) {n : Nat} {x : Rhs} (h : RhsFits t n x) :
    ∃ y, asSimd t n x = .ok y ∧ y.length = n ∧ LanesOf t y ∧ ∀ (i : Nat) (c : Int), y[i]? = some c → RhsLane t x i c := by
  have conv {x : List Int} (hn : n ≤ x.length) : ∃ y, staticSimdCast n t.conv x = .ok y ∧ y.length = n ∧ LanesOf t y ∧
      ∀ (i : Nat) (c : Int), y[i]? = some c → ∃ a, x[i]? = some a ∧ IsWrapped t a c := by
    refine ⟨_, (Casts.staticSimdCast_size n t.conv x).1 hn, by simp; omega, ?_, ?_⟩
    · intro a ha
      obtain ⟨b, _, rfl⟩ := List.mem_map.1 ha
      exact IntTy.has_conv t hv.1 b
    · intro i c hc
      rw [List.getElem?_map, Option.map_eq_some_iff] at hc
      obtain ⟨a, ha, rfl⟩ := hc
      rw [List.getElem?_take] at ha
      split at ha
      · exact ⟨a, ha, isWrapped_conv hv.1 a⟩
      · cases ha
  match x, h with
  | .same x, h => exact ⟨x, rfl, h.1, h.2, fun i c hc => hc⟩
  | .scalar x, _ =>
    refine ⟨(List.range n).map fun _ => t.conv x, gen_eq n _ _ fun _ _ => rfl, by simp, ?_, ?_⟩
    · intro a ha
      obtain ⟨b, _, rfl⟩ := List.mem_map.1 ha
      exact IntTy.has_conv t hv.1 x
    · intro i c hc
      rw [List.getElem?_map, Option.map_eq_some_iff] at hc
      obtain ⟨a, _, rfl⟩ := hc
      exact isWrapped_conv hv.1 x
  | .simd true x, h => exact conv (Nat.le_of_eq h.symm)
  | .simd false x, h => exact conv h
  | .mask x, h =>
    obtain ⟨h, zero, one⟩ := h
    refine ⟨x.map fun b => if b then 1 else 0, ?_, by simp [h], ?_, ?_⟩
    · rw [asSimd, if_pos h]
      refine gen_list (by simp [h]) fun j y hy => ?_
      rw [List.getElem?_map, Option.map_eq_some_iff] at hy
      obtain ⟨b, hb, rfl⟩ := hy
      simp [at', hb]
    · intro a ha
      obtain ⟨b, _, rfl⟩ := List.mem_map.1 ha
      split
      · exact one
      · exact zero
    · intro i c hc
      rw [List.getElem?_map, Option.map_eq_some_iff] at hc
      obtain ⟨b, hb, rfl⟩ := hc
      exact ⟨b, hb, rfl⟩

/-- **C85.** `where(k, v) = x`, for every kind of right-hand side that has enough lanes: the selected lanes become the lanes of `x`,
converted to the element type; the others keep their value. -/
theorem assign_spec (t : IntTy) (hv : ValidTy t) (k : List Bool) (v : List Int) (hk : k.length = v.length) (x : Rhs)
    (hx : RhsFits t v.length x) :
    ∃ r, assign t k v x = .ok r ∧ r.length = v.length ∧ ∀ (i : Nat) (b : Bool), k[i]? = some b →
      if b then ∃ c, RhsLane t x i c ∧ r[i]? = some c else r[i]? = v[i]? := by
  obtain ⟨y, h1, h2, _, h3⟩ := asSimd_ok hv hx
  obtain ⟨r, hr, hl, hw⟩ := whereAssign_spec k v y hk h2
  refine ⟨r, by rw [assign, h1, Outcome.bind_ok, hr], hl, fun i b hb => ?_⟩
  have hi : i < v.length := by have := (List.getElem?_eq_some_iff.1 hb).1; omega
  have := hw i b v[i] hb (List.getElem?_eq_getElem hi)
  cases b with
  | true =>
    rw [if_pos rfl] at this ⊢
    have hy : y[i]? = some (y[i]'(by omega)) := List.getElem?_eq_getElem (by omega)
    exact ⟨y[i]'(by omega), h3 i _ hy, by rw [this]; simp [hy]⟩
  | false => rw [if_neg (by simp)] at this ⊢; rw [this, List.getElem?_eq_getElem hi]

/-- **C85.** `where(k, v) op= x`, if the operation is defined on every selected lane: the selected lanes become the result of the operator
on two values of the element type, the second of which is the converted lane of `x`. -/
theorem opAssign_spec (t : IntTy) (hv : ValidTy t) (op : BinOp) (k : List Bool) (v : List Int) (hk : k.length = v.length)
    (hvl : LanesOf t v) (x : Rhs) (hx : RhsFits t v.length x)
    (hd : ∀ (i : Nat) (a c : Int), k[i]? = some true → v[i]? = some a → RhsLane t x i c → ¬ IsUndefined t op a c) :
    ∃ r, opAssign t op k v x = .ok r ∧ r.length = v.length ∧ ∀ (i : Nat) (b : Bool) (a : Int), k[i]? = some b → v[i]? = some a →
      if b then ∃ c d, RhsLane t x i c ∧ IsResult t op a c d ∧ r[i]? = some d else r[i]? = some a := by
  obtain ⟨y, h1, h2, h4, h3⟩ := asSimd_ok hv hx
  have key (i : Nat) (a c : Int) (hki : k[i]? = some true) (hva : v[i]? = some a) (hyc : y[i]? = some c) :
      ∃ d, op.eval t a c = .ok d ∧ IsResult t op a c d := by
    obtain ⟨d, e1, e2, _⟩ := eval_spec t hv op a c (hvl _ (List.mem_of_getElem? hva)) (fun _ _ => h4 _ (List.mem_of_getElem? hyc))
      (hd i a c hki hva (h3 i c hyc))
    exact ⟨d, e1, e2⟩
  obtain ⟨r, hr, hl, hw⟩ := whereOpAssign_spec (op.eval t) (fun a c => match op.eval t a c with | .ok d => d | _ => 0) k v y hk h2
    fun i a c hki hva hyc => by
      obtain ⟨d, e1, _⟩ := key i a c hki hva hyc
      rw [e1]
  refine ⟨r, by rw [opAssign, h1, Outcome.bind_ok, hr], hl, fun i b a hb ha => ?_⟩
  have hi : i < v.length := (List.getElem?_eq_some_iff.1 ha).1
  have := hw i b a hb ha
  cases b with
  | true =>
    rw [if_pos rfl] at this ⊢
    have hy : y[i]? = some (y[i]'(by omega)) := List.getElem?_eq_getElem (by omega)
    obtain ⟨d, e1, e2⟩ := key i a _ hb ha hy
    refine ⟨_, d, h3 i _ hy, e2, ?_⟩
    rw [this]
    simp only [List.getD_eq_getElem?_getD, hy, Option.getD_some]
    rw [e1]
  | false => rw [if_neg (by simp)] at this ⊢; exact this

/-- **C85.** It is undefined if the operation is undefined on a selected lane and the converted lane of `x`; together with
`opAssign_spec`: if and only if. -/
theorem opAssign_ub (t : IntTy) (hv : ValidTy t) (op : BinOp) (k : List Bool) (v : List Int) (hk : k.length = v.length)
    (hvl : LanesOf t v) (x : Rhs) (hx : RhsFits t v.length x) {i : Nat} {a : Int} (hki : k[i]? = some true) (hva : v[i]? = some a)
    (hd : ∀ c, RhsLane t x i c → IsUndefined t op a c) : ∃ u, opAssign t op k v x = .ub u := by
  obtain ⟨y, h1, h2, h4, h3⟩ := asSimd_ok hv hx
  have hy (j : Nat) (hj : j < v.length) : y[j]? = some (y[j]'(by omega)) := List.getElem?_eq_getElem (by omega)
  have hi : i < v.length := (List.getElem?_eq_some_iff.1 hva).1
  obtain ⟨u, _, hu⟩ := maskedUpdate_some_ub (f := fun i x => do op.eval t x (← at' y i)) (fun _ => True) hk
    (fun j b hb _ => by
      have hj : j < v.length := (List.getElem?_eq_some_iff.1 hb).1
      simp only [at', hy j hj, Outcome.bind_ok]
      cases he : op.eval t b (y[j]'(by omega)) with
      | ok d => exact .inl ⟨d, rfl⟩
      | ub u => exact .inr ⟨u, trivial, rfl⟩
      | trap => exact absurd he (eval_not_trap t op _ _)) hva hki (by
      simp only [at', hy i hi, Outcome.bind_ok]
      exact eval_ub t hv op a _ (hvl _ (List.mem_of_getElem? hva)) (fun _ _ => h4 _ (List.mem_of_getElem? (hy i hi)))
        (hd _ (h3 i _ (hy i hi))))
  exact ⟨u, by rw [opAssign, h1, Outcome.bind_ok, whereOpAssign, hu]⟩

/-- **C85, false of the code.** A simd with fewer lanes than `v` should be rejected by the compiler. It is accepted, and reading the
missing lanes fails the check of the subscript, whatever the mask selects. -/
theorem assign_few_lanes (t : IntTy) (k : List Bool) (v x : List Int) (h : x.length < v.length) :
    assign t k v (.simd false x) = .trap ∧ ∀ op, opAssign t op k v (.simd false x) = .trap := by
  constructor
  · rw [assign, asSimd, (Casts.staticSimdCast_size v.length t.conv x).2 h]; rfl
  · intro op; rw [opAssign, asSimd, (Casts.staticSimdCast_size v.length t.conv x).2 h]; rfl

/-- **C85, false of the code.** A simd with more lanes is accepted, too, and the lanes beyond those of `v` are dropped. -/
theorem assign_many_lanes (t : IntTy) (k : List Bool) (v x y : List Int) (h : x.length = v.length) :
    assign t k v (.simd false (x ++ y)) = assign t k v (.simd false x) := by
  rw [assign, assign, asSimd, asSimd, (Casts.staticSimdCast_size v.length t.conv (x ++ y)).1 (by simp; omega),
    (Casts.staticSimdCast_size v.length t.conv x).1 (by omega)]
  congr 3
  rw [List.take_append_of_le_length (by omega)]

/-- **C85, limit of the claim.** Scalars that the constructor of the simd rejects, because the conversion could change the value, are
converted: `where(k, v) = 2^32 + 1` with a `long long` assigns one to lanes of type `int`. -/
theorem assign_narrows (rnd : Convert.FloatTy → ℚ → ℚ) :
    Convert.acceptsBroadcast rnd (.int .i64 1) (.int .i32 0) = false ∧
    assign .i32 [true, false] [7, 8] (.scalar 4294967297) = .ok [1, 8] := by
  constructor
  · simp [Convert.acceptsBroadcast, Convert.valuePreserving, Convert.ArithTy.cint, Convert.ArithTy.cuint, Convert.ArithTy.digits,
      Convert.ArithTy.rep, IntTy.i64, IntTy.i32, IntTy.u32]
  · decide +kernel

private theorem bind_inv {x : Outcome α} {f : α → Outcome β} {y : β} (h : (x >>= f) = .ok y) : ∃ a, x = .ok a ∧ f a = .ok y := by
  cases x with
  | ok a => exact ⟨a, rfl, h⟩
  | ub e => cases h
  | trap => cases h

private theorem arith_emod {p : IntTy} {x r : Int} (h : p.arith x = .ok r) : r % 2 ^ p.bits = x % 2 ^ p.bits := by
  unfold IntTy.arith at h
  split at h
  · split at h
    · injection h with h; rw [h]
    · cases h
  · injection h with h
    rw [← h]; exact IntTy.conv_emod p x

private theorem common_bits (t s : IntTy) : t.bits ≤ (Convert.commonInt t s).bits := by
  have := IntTy.le_promote t
  unfold Convert.commonInt
  simp only
  repeat' split
  all_goals omega

private theorem ring_eval {p : IntTy} {op : BinOp} (hop : op = .add ∨ op = .sub ∨ op = .mul) {a b a' b' r : Int} {n : Nat}
    (hn : n ≤ p.bits) (ha : a % 2 ^ n = a' % 2 ^ n) (hb : b % 2 ^ n = b' % 2 ^ n) (h : op.evalIn p a b = .ok r) :
    r % 2 ^ n = (match op with | .add => a' + b' | .sub => a' - b' | _ => a' * b') % 2 ^ n := by
  rcases hop with rfl | rfl | rfl
  · rw [IntTy.emod_pow_of_le hn (arith_emod h), Int.add_emod, ha, hb, ← Int.add_emod]
  · rw [IntTy.emod_pow_of_le hn (arith_emod h), Int.sub_emod, ha, hb, ← Int.sub_emod]
  · rw [IntTy.emod_pow_of_le hn (arith_emod h), Int.mul_emod, ha, hb, ← Int.mul_emod]

/-- **C85.** Generic code: `where(bool, v) op= x` on a scalar computes in the common type of `v` and `x`, the same on a lane of a simd in
the element type after converting `x`. For `+=`, `-=` and `*=` the results agree whenever both are defined, for all types. -/
theorem scalar_simd_agree (t s : IntTy) (ht : 0 < t.bits) (op : BinOp) (hop : op = .add ∨ op = .sub ∨ op = .mul) (v x r : Int)
    (c : List Int) (h1 : scalarOpAssign t s op true v x = .ok r) (h2 : opAssign t op [true] [v] (.scalar x) = .ok c) : c = [r] := by
  have e1 : compound t s op v x = .ok r := h1
  have e2 : op.eval t v (t.conv x) >>= (fun d => Outcome.ok [d]) = .ok c := by
    rw [← h2, opAssign, asSimd]
    simp only [List.length_cons, List.length_nil, gen, genFrom, Outcome.bind_ok, whereOpAssign, maskedUpdate, forUp, at',
      List.getElem?_cons_zero, if_true]
    cases op.eval t v (t.conv x) <;> rfl
  have hr : ∃ r', op.evalIn (Convert.commonInt t s) ((Convert.commonInt t s).conv v) ((Convert.commonInt t s).conv x) = .ok r' ∧
      t.conv r' = r := by
    rcases hop with rfl | rfl | rfl <;>
    · simp only [compound] at e1
      obtain ⟨r', h, h'⟩ := bind_inv e1
      exact ⟨r', h, by injection h'⟩
  obtain ⟨r', hr1, rfl⟩ := hr
  obtain ⟨d, hd, hc⟩ := bind_inv e2
  injection hc with hc
  subst hc
  unfold BinOp.eval at hd
  obtain ⟨d', hd1, hd2⟩ := bind_inv hd
  injection hd2 with hd2
  subst hd2
  congr 1
  refine IntTy.conv_congr ht ?_
  rw [ring_eval (a' := v) (b' := x) hop (IntTy.le_promote t) rfl (IntTy.conv_emod t x) hd1,
    ring_eval (a' := v) (b' := x) hop (common_bits t s) (IntTy.emod_pow_of_le (common_bits t s) (IntTy.conv_emod _ v))
      (IntTy.emod_pow_of_le (common_bits t s) (IntTy.conv_emod _ x)) hr1]
  rcases hop with rfl | rfl | rfl <;> rfl

/-- **C85, limit of the claim.** For division they do not: `where(true, v) /= 300` on a `signed char` of value 100 gives 0, on a lane of
a simd of `signed char` it gives 2. The same holds for shifts: `v >>= 256` is undefined on the scalar and does nothing on the lane. -/
theorem scalar_simd_differ :
    scalarOpAssign .i8 .i32 .div true 100 300 = .ok 0 ∧ opAssign .i8 .div [true] [100] (.scalar 300) = .ok [2] ∧
    scalarOpAssign .i8 .i32 .shr true 100 256 = .ub .shift ∧ opAssign .i8 .shr [true] [100] (.scalar 256) = .ok [100] := by
  decide +kernel

/-- **C85.** The update of a scalar by a shift, for every type of the right-hand side: the result of shifting a value of the type, or undefined
if the count is negative or too large for the promoted type. -/
theorem scalar_shift (t s : IntTy) (ht : ValidTy t) (op : BinOp) (hop : op = .shl ∨ op = .shr) (v x : Int) (hv : t.Has v) :
    (¬ IsUndefined t op v x → ∃ r, scalarOpAssign t s op true v x = .ok r ∧ IsResult t op v x r) ∧
    (IsUndefined t op v x → ∃ u, scalarOpAssign t s op true v x = .ub u) := by
  have e : scalarOpAssign t s op true v x = op.eval t v x := by rcases hop with rfl | rfl <;> rfl
  have hb : op ≠ .shl → op ≠ .shr → t.Has x := fun h1 h2 => by rcases hop with h | h <;> contradiction
  rw [e]
  refine ⟨fun h => ?_, fun h => eval_ub t ht op v x hv hb h⟩
  obtain ⟨r, h1, h2, _⟩ := eval_spec t ht op v x hv hb h
  exact ⟨r, h1, h2⟩

/-- **C85.** The type in which the other updates of a scalar are computed: of the promoted types the wider one; if they have the same width,
the unsigned one if there is one. -/
theorem common_type (t s : IntTy) :
    (Convert.commonInt t s = t.promote ∨ Convert.commonInt t s = s.promote) ∧
    t.promote.bits ≤ (Convert.commonInt t s).bits ∧ s.promote.bits ≤ (Convert.commonInt t s).bits ∧
    (t.promote.bits = s.promote.bits → (Convert.commonInt t s).signed = (t.promote.signed && s.promote.signed)) := by
  unfold Convert.commonInt
  generalize t.promote = a
  generalize s.promote = b
  obtain ⟨n, p⟩ := a
  obtain ⟨m, q⟩ := b
  cases p <;> cases q <;> simp <;> split <;> simp_all <;> omega

/-- **C85.** An unsigned scalar of at least 32 bits never overflows when updated with a scalar of a type that is not wider: `+=`, `-=` and `*=`
give the mathematical result modulo `2 ^ bits`, whether or not the right-hand side is signed. -/
theorem scalar_unsigned (t s : IntTy) (ht : 32 ≤ t.bits) (hu : t.signed = false) (hs : s.bits ≤ t.bits) (op : BinOp)
    (hop : op = .add ∨ op = .sub ∨ op = .mul) (v x : Int) :
    ∃ r, scalarOpAssign t s op true v x = .ok r ∧ IsResult t op v x r := by
  have hc : Convert.commonInt t s = t := by
    have e1 : t.promote = t := promote_wide ht
    have e2 : s.promote.bits ≤ t.bits := by rw [IntTy.promote_bits]; split <;> omega
    unfold Convert.commonInt
    simp only [e1, hu, Bool.false_eq_true, if_false]
    generalize s.promote = b at e2
    obtain ⟨m, q⟩ := b
    obtain ⟨n, p⟩ := t
    simp only at hu e2 ⊢
    subst hu
    cases q with
    | true => simp [e2]
    | false =>
      simp only [if_true]
      split
      · rename_i h; have : m = n := by omega
        rw [this]
      · rfl
  have hb : 0 < t.bits := by omega
  have key : ∀ y z : Int, y % 2 ^ t.bits = z % 2 ^ t.bits → ∃ r, (do let r ← t.arith y; .ok (t.conv r)) = Outcome.ok r ∧ IsWrapped t z r := by
    intro y z h
    refine ⟨t.conv (t.conv y), by simp [IntTy.arith, hu], ?_⟩
    rw [IntTy.conv_conv hb (Nat.le_refl _), IntTy.conv_congr hb h]
    exact isWrapped_conv hb z
  have hv := IntTy.conv_emod t v
  have hx := IntTy.conv_emod t x
  have e : scalarOpAssign t s op true v x = compound t s op v x := rfl
  rw [e]
  rcases hop with rfl | rfl | rfl
  · simp only [compound, hc, BinOp.evalIn]
    exact key _ _ (by rw [Int.add_emod, hv, hx, ← Int.add_emod])
  · simp only [compound, hc, BinOp.evalIn]
    exact key _ _ (by rw [Int.sub_emod, hv, hx, ← Int.sub_emod])
  · simp only [compound, hc, BinOp.evalIn]
    exact key _ _ (by rw [Int.mul_emod, hv, hx, ← Int.mul_emod])

/-! ### the theorems are about something -/

example : assign .i8 [true, false, true] [1, 2, 3] (.scalar 300) = .ok [44, 2, 44] := by decide +kernel
example : assign .i8 [true, false, true] [1, 2, 3] (.simd false [300, 301, 302]) = .ok [44, 2, 46] := by decide +kernel
example : assign .i8 [true, false, true] [1, 2, 3] (.mask [true, true, false]) = .ok [1, 2, 0] := by decide +kernel
example : RhsFits .i8 3 (.simd false [300, 301, 302]) ∧ RhsFits .i8 3 (.scalar 300) ∧ RhsFits .i8 3 (.mask [true, true, false]) ∧
    ValidTy .i8 := by
  refine ⟨by simp [RhsFits], trivial, ⟨rfl, by decide, by decide⟩, by decide, by decide⟩
/-- A division by zero in a lane that is not selected is harmless. -/
example : opAssign .i32 .div [true, false] [7, 8] (.same [2, 0]) = .ok [3, 8] := by decide +kernel
example : scalarOpAssign .i8 .i32 .add true 100 300 = .ok (-112) ∧ opAssign .i8 .add [true] [100] (.scalar 300) = .ok [-112] := by
  decide +kernel

/-! ## The theorems applied to concrete data -/

private theorem fits3 : RhsFits .i8 3 (.simd false [300, 301, 302]) := by simp [RhsFits]

example := assign_spec .i8 ⟨by decide, by decide⟩ [true, false, true] [1, 2, 3] rfl _ fits3
example := opAssign_spec .i32 ⟨by decide, by decide⟩ .xor [true, false] [7, 8] rfl (by unfold LanesOf; decide) (.scalar 2) trivial fun _ _ _ _ _ _ h => h
example := opAssign_ub .i32 ⟨by decide, by decide⟩ .div [true, true] [7, 8] rfl (by unfold LanesOf; decide) (.same [2, 0])
  ⟨rfl, by unfold LanesOf; decide⟩ (i := 1) rfl rfl fun c hc => .inl (by simpa [RhsLane] using hc.symm)
example := assign_few_lanes .i8 [true, false, true] [1, 2, 3] [300, 301] (by decide)
example := assign_many_lanes .i8 [true, false, true] [1, 2, 3] [300, 301, 302] [9] rfl
example : scalarOpAssign .i16 .i64 .shl true 3 4 = .ok 48 ∧ ¬ IsUndefined .i16 .shl 3 4 ∧
    scalarOpAssign .u32 .i32 .add true 4294967295 2147483647 = .ok 2147483646 ∧ Convert.commonInt .u32 .i32 = .u32 := by
  refine ⟨by decide +kernel, by simp [IsUndefined, IntTy.i16], by decide +kernel, by decide⟩
example := scalar_unsigned .u32 .i32 (by decide) rfl (by decide) .mul (.inr (.inr rfl)) 4294967295 (-3)
example := scalar_shift .i16 .i64 ⟨by decide, by decide⟩ .shl (.inl rfl) 3 4 (by decide)
example := scalar_simd_agree .i8 .i32 (by decide) .add (.inl rfl) 100 300 (-112) [-112] (by decide +kernel) (by decide +kernel)

end Vir.WhereRhs
