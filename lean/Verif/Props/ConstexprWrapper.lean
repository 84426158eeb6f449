import Verif.Spec.ConstexprWrapper

/-!
# C67: expressions of constants
-/

namespace Vir.Cw
open Spec

variable {V : Type} [DecidableEq V]

private theorem mem_distinct {x : V} : ∀ {l : List V}, x ∈ distinct l ↔ x ∈ l
  | [] => by simp [distinct]
  | y :: l => by
    rw [distinct]
    split
    · rename_i h
      rw [mem_distinct, List.mem_cons]
      have hy : y ∈ l := by simpa using h
      exact ⟨Or.inr, fun h => h.elim (fun e => e ▸ hy) id⟩
    · rw [List.mem_cons, List.mem_cons, mem_distinct]

private theorem nodup_distinct : ∀ l : List V, (distinct l).Nodup
  | [] => by simp [distinct]
  | y :: l => by
    rw [distinct]
    split
    · exact nodup_distinct l
    · rename_i h
      rw [List.nodup_cons, mem_distinct]
      exact ⟨by simpa using h, nodup_distinct l⟩

omit [DecidableEq V] in
private theorem nodup_one {l : List V} (hn : l.Nodup) : l.length = 1 ↔ ∃ w, ∀ x, x ∈ l ↔ x = w := by
  match l, hn with
  | [], _ => 
    simp only [List.length_nil, List.not_mem_nil, false_iff]
    refine ⟨fun h => by simp at h, fun ⟨w, hw⟩ => absurd rfl (hw w)⟩
  | [a], _ => exact ⟨fun _ => ⟨a, by simp⟩, fun _ => rfl⟩
  | a :: b :: l, hn =>
    constructor
    · intro h; simp at h
    · rintro ⟨w, hw⟩
      have h1 : a = w := (hw a).1 (by simp)
      have h2 : b = w := (hw b).1 (by simp)
      rw [h1, h2] at hn
      simp at hn

private theorem candidates_nodup (a b : Operand V) : (candidates a b).Nodup :=
  List.filter_sublist.nodup (nodup_distinct _)

private theorem mem_candidates (a b : Operand V) (x : V) :
    x ∈ candidates a b ↔ x ∈ a.bases ++ a.args ++ b.bases ++ b.args ∧ lhsWrapper a x = true ∧ constexprValue b = true := by
  simp [candidates, List.mem_filter, mem_distinct]

/-- **C67.** When exactly one operator is viable: with a wrapper on the left-hand side, if it derives from no other wrapper; without,
if exactly one wrapper is associated with the operands. -/
theorem candidates_unique_iff (a b : Operand V) (ha : a.value ≠ none) (hb : b.value ≠ none) :
    (candidates a b).length = 1 ↔
      if anyWrapper a = true then ∃ w, ∀ x, x ∈ a.bases ↔ x = w
      else ∃ w, ∀ x, x ∈ a.bases ++ a.args ++ b.bases ++ b.args ↔ x = w := by
  have hva : constexprValue a = true := by
    unfold constexprValue; cases h : a.value with | none => exact absurd h ha | some _ => rfl
  have hvb : constexprValue b = true := by
    unfold constexprValue; cases h : b.value with | none => exact absurd h hb | some _ => rfl
  rw [nodup_one (candidates_nodup a b)]
  split
  · rename_i h
    have : ∀ x, x ∈ candidates a b ↔ x ∈ a.bases := by
      intro x
      rw [mem_candidates, lhsWrapper, hva, hvb, h]
      simp
      intro h; exact Or.inl h
    simp only [this]
  · rename_i h
    have : ∀ x, x ∈ candidates a b ↔ x ∈ a.bases ++ a.args ++ b.bases ++ b.args := by
      intro x
      rw [mem_candidates, lhsWrapper, hva, hvb]
      simp [h]
    simp only [this]

omit [DecidableEq V] in
private theorem ordinary_wrapper (v : V) : Ordinary (wrapper v) := ⟨rfl, by simp [wrapper], Or.inr ⟨rfl, rfl⟩⟩

omit [DecidableEq V] in
private theorem ordinary_plain (v : V) : Ordinary (plain v) := ⟨rfl, by simp [plain], Or.inl rfl⟩

omit [DecidableEq V] in
private theorem unary_ordinary (op : V → Outcome V) (a : Operand V) (ha : Ordinary a) :
    (∀ z, op a.conv = .ok z → unary op a = .ok (if a.bases ≠ [] then wrapper z else plain z)) ∧
    (∀ u, op a.conv = .ub u → unary op a = .ub u) ∧ (op a.conv = .trap → unary op a = .trap) := by
  obtain ⟨-, -, h | ⟨h1, h2⟩⟩ := ha
  · unfold unary
    rw [h]
    exact ⟨fun z hz => by simp [hz], fun u hu => by simp [hu], fun hu => by simp [hu]⟩
  · unfold unary
    rw [h2]
    exact ⟨fun z hz => by simp [hz], fun u hu => by simp [hu], fun hu => by simp [hu]⟩

private theorem candidates_ordinary (a b : Operand V) (ha : Ordinary a) (hb : Ordinary b) :
    (a.value ≠ none ∧ b.value ≠ none ∧ (a.bases ≠ [] ∨ b.bases ≠ []) → (candidates a b).length = 1) ∧
    (a.bases = [] ∧ b.bases = [] → candidates a b = []) := by
  obtain ⟨ha1, ha2, ha3⟩ := ha
  obtain ⟨hb1, hb2, hb3⟩ := hb
  constructor
  · rintro ⟨h1, h2, h3⟩
    rw [candidates_unique_iff a b h1 h2]
    rcases ha3 with ha3 | ⟨ha3, ha4⟩
    · rw [if_neg (by unfold anyWrapper; rw [ha3]; split <;> simp)]
      rcases hb3 with hb3 | ⟨hb3, hb4⟩
      · rw [ha3, hb3] at h3; simp at h3
      · exact ⟨b.conv, by simp [ha1, ha3, hb1, hb4]⟩
    · rw [if_pos (by simp [anyWrapper, ha3, ha4])]
      exact ⟨a.conv, by simp [ha4]⟩
  · rintro ⟨h1, h2⟩
    simp [candidates, h1, h2, ha1, hb1, distinct]

omit [DecidableEq V] in
private theorem constant_of_bases {a : Operand V} (ha : Ordinary a) (h : a.bases ≠ []) : a.value ≠ none := by
  obtain ⟨-, -, h1 | ⟨h1, -⟩⟩ := ha
  · exact absurd h1 h
  · simp [h1]

private theorem binary_fallback {op : V → V → Outcome V} {a b : Operand V}
    (h : (∀ x y z, a.value = some x → b.value = some y → op x y ≠ .ok z) ∨ candidates a b = []) :
    binary op a b = (op a.conv b.conv >>= fun z => .ok (plain z)) := by
  unfold binary
  rcases h with h | h
  · cases hx : a.value with
    | none => rfl
    | some x =>
      cases hy : b.value with
      | none => rfl
      | some y =>
        cases ho : op x y with
        | ok z => exact absurd ho (h x y z hx hy)
        | ub u => simp [ho]
        | trap => simp [ho]
  · rw [h]
    cases hx : a.value with
    | none => rfl
    | some x =>
      cases hy : b.value with
      | none => rfl
      | some y =>
        cases ho : op x y with
        | ok z => simp [ho]
        | ub u => simp [ho]
        | trap => simp [ho]

private theorem binary_ordinary (op : V → V → Outcome V) (a b : Operand V) (ha : Ordinary a) (hb : Ordinary b) :
    (∀ z, op a.conv b.conv = .ok z → binary op a b = .ok (if a.value ≠ none ∧ b.value ≠ none ∧ (a.bases ≠ [] ∨ b.bases ≠ []) then
      wrapper z else plain z)) ∧
    (∀ u, op a.conv b.conv = .ub u → binary op a b = .ub u) ∧ (op a.conv b.conv = .trap → binary op a b = .trap) := by
  have hval : ∀ x y, a.value = some x → b.value = some y → x = a.conv ∧ y = b.conv :=
    fun x y hx hy => ⟨ha.2.1 x hx, hb.2.1 y hy⟩
  refine ⟨?_, ?_, ?_⟩
  · intro z hz
    by_cases hc : a.value ≠ none ∧ b.value ≠ none ∧ (a.bases ≠ [] ∨ b.bases ≠ [])
    · rw [if_pos hc]
      have hl := (candidates_ordinary a b ha hb).1 hc
      obtain ⟨x, hx⟩ := Option.ne_none_iff_exists'.1 hc.1
      obtain ⟨y, hy⟩ := Option.ne_none_iff_exists'.1 hc.2.1
      obtain ⟨rfl, rfl⟩ := hval x y hx hy
      obtain ⟨w, hw⟩ := List.length_eq_one_iff.1 hl
      unfold binary
      simp [hx, hy, hz, hw]
    · rw [if_neg hc]
      have : binary op a b = (op a.conv b.conv >>= fun z => .ok (plain z)) := by
        by_cases hv : a.value ≠ none ∧ b.value ≠ none
        · refine binary_fallback (Or.inr ?_)
          refine (candidates_ordinary a b ha hb).2 ⟨?_, ?_⟩
          · exact Classical.byContradiction fun h => hc ⟨hv.1, hv.2, Or.inl h⟩
          · exact Classical.byContradiction fun h => hc ⟨hv.1, hv.2, Or.inr h⟩
        · refine binary_fallback (Or.inl ?_)
          intro x y z hx hy
          exact absurd ⟨by simp [hx], by simp [hy]⟩ hv
      rw [this, hz]; rfl
  · intro u hu
    rw [binary_fallback (Or.inl fun x y z hx hy => by
      obtain ⟨rfl, rfl⟩ := hval x y hx hy
      rw [hu]; simp), hu]
    rfl
  · intro hu
    rw [binary_fallback (Or.inl fun x y z hx hy => by
      obtain ⟨rfl, rfl⟩ := hval x y hx hy
      rw [hu]; simp), hu]
    rfl

/-- **C67.** Expressions of `constexpr_wrapper`s, other constants and values have the same value, or the same undefined behaviour, as
without wrappers. The result is a `constexpr_wrapper` holding that value wherever one operand is a wrapper and all are constants. -/
theorem compile_spec (e : Expr V) (h : OrdinaryLeaves e) :
    (∀ v, evalExpr e = .ok v → ∃ t, compile e = .ok t ∧ t.conv = v ∧ Ordinary t ∧
      (WrappedExpr e ↔ v ∈ t.bases) ∧ (ConstantExpr e ↔ t.value = some v)) ∧
    (∀ u, evalExpr e = .ub u → compile e = .ub u) ∧ (evalExpr e = .trap → compile e = .trap) := by
  have hb : ∀ t : Operand V, Ordinary t → (t.bases ≠ [] ↔ t.conv ∈ t.bases) := by
    rintro t ⟨-, -, h | ⟨-, h⟩⟩ <;> simp [h]
  have hc : ∀ t : Operand V, Ordinary t → (t.value ≠ none ↔ t.value = some t.conv) := by
    rintro t ⟨-, h, -⟩
    cases hv : t.value with
    | none => simp
    | some x => simp [h x hv]
  induction e with
  | leaf t =>
    refine ⟨?_, ?_, ?_⟩
    · rintro v hv
      simp only [evalExpr, Outcome.ok.injEq] at hv
      subst hv
      refine ⟨t, rfl, rfl, h, ?_, ?_⟩
      · rw [WrappedExpr]; exact hb t h
      · rw [ConstantExpr]; exact hc t h
    · intro u hu; cases hu
    · intro hu; cases hu
  | un op e ih =>
    obtain ⟨i1, i2, i3⟩ := ih h
    simp only [evalExpr, compile]
    cases he : evalExpr e with
    | ub u => rw [i2 u he]; simp
    | trap => rw [i3 he]; simp
    | ok x =>
      obtain ⟨t, t1, rfl, t3, t4, t5⟩ := i1 x he
      rw [t1, Outcome.bind_ok, Outcome.bind_ok]
      obtain ⟨u1, u2, u3⟩ := unary_ordinary op t t3
      refine ⟨?_, u2, u3⟩
      intro v hv
      refine ⟨_, u1 v hv, ?_⟩
      rw [WrappedExpr, ConstantExpr, t4, ← hb t t3]
      split
      · exact ⟨rfl, ordinary_wrapper v, by simp_all [wrapper], by simp_all [wrapper]⟩
      · exact ⟨rfl, ordinary_plain v, by simp_all [plain], by simp_all [plain]⟩
  | bin op a b iha ihb =>
    obtain ⟨i1, i2, i3⟩ := iha h.1
    obtain ⟨j1, j2, j3⟩ := ihb h.2
    simp only [evalExpr, compile]
    cases he : evalExpr a with
    | ub u => rw [i2 u he]; simp
    | trap => rw [i3 he]; simp
    | ok x =>
      obtain ⟨s, s1, rfl, s3, s4, s5⟩ := i1 x he
      rw [s1, Outcome.bind_ok, Outcome.bind_ok]
      cases he' : evalExpr b with
      | ub u => rw [j2 u he']; simp
      | trap => rw [j3 he']; simp
      | ok y =>
        obtain ⟨t, t1, rfl, t3, t4, t5⟩ := j1 y he'
        rw [t1, Outcome.bind_ok, Outcome.bind_ok]
        obtain ⟨u1, u2, u3⟩ := binary_ordinary op s t s3 t3
        refine ⟨?_, u2, u3⟩
        intro v hv
        refine ⟨_, u1 v hv, ?_⟩
        rw [WrappedExpr, ConstantExpr, s4, t4, s5, t5, ← hb t t3, ← hb s s3, ← hc t t3, ← hc s s3]
        split
        · exact ⟨rfl, ordinary_wrapper v, by simp_all [wrapper], by simp_all [wrapper]⟩
        · exact ⟨rfl, ordinary_plain v, by simp_all [plain], by simp_all [plain]⟩

omit [DecidableEq V] in
private theorem filterMap_conv : ∀ (args : List (Operand V)), (∀ a ∈ args, a.value = some a.conv) →
    args.filterMap (·.value) = args.map (·.conv)
  | [], _ => rfl
  | a :: l, h => by
    rw [List.filterMap_cons, h a (by simp)]
    simp [filterMap_conv l fun x hx => h x (by simp [hx])]

/-- **C67.** `cw<f>(args...)` for constants whose call is a constant expression is a wrapper of the result. -/
theorem callOp_const (c : Callable V) (p : Bool) (f : V) (args : List (Operand V)) (ha : ∀ a ∈ args, a.value = some a.conv) (r : V)
    (hr : c.call f (args.map (·.conv)) = .ok r) (hc : c.isConst f (args.map (·.conv)) = true) :
    callOp c p f args = .ok (wrapper r) := by
  have h1 : args.all constexprValue = true := by
    rw [List.all_eq_true]; intro a h; simp [constexprValue, ha a h]
  unfold callOp
  simp [filterMap_conv args ha, hr, hc, h1]

/-- **C67.** With an argument that is no constant the wrapped function is called at run time. -/
theorem callOp_plain (c : Callable V) (p : Bool) (f : V) (args : List (Operand V)) (a : Operand V) (ha : a ∈ args)
    (hv : a.value = none) :
    callOp c p f args = (c.call f (args.map (·.conv)) >>= fun r => .ok (plain r)) := by
  have h1 : args.all constexprValue = false := by
    rw [← Bool.not_eq_true, List.all_eq_true]
    intro h
    have := h a ha
    simp [constexprValue, hv] at this
  have h2 : args.any (fun a => !constexprValue a) = true := by
    rw [List.any_eq_true]
    exact ⟨a, ha, by simp [constexprValue, hv]⟩
  unfold callOp
  simp [h1, h2]

/-- **C67.** `cw<v>()` is the value if it cannot be called without arguments. -/
theorem callOp_value (c : Callable V) (p : Bool) (f : V) (h : c.call f [] = .ub .staticAssert) :
    callOp c p f [] = .ok (plain f) := by
  simp [callOp, h]

omit [DecidableEq V] in
/-- **C67.** A unary operator on an object of a class derived from one `constexpr_wrapper`, if the operator is no constant expression for the
wrapped value: the object is converted and the operator applied at run time. The result depends on the conversion, not on the wrapped value. -/
theorem unary_run_time (op : V → Outcome V) (a : Operand V) (w : V) (hb : a.bases = [w]) (hn : ∀ z, op w ≠ .ok z) :
    unary op a = (op a.conv >>= fun z => .ok (plain z)) := by
  unfold unary
  rw [hb]
  simp only

/-- A class derived from `constexpr_wrapper<INT_MIN>` whose conversion yields 5: negation is `-5`, at run time. -/
example : unary (fun x : Int => if x = -2147483648 then .ub .overflow else .ok (-x)) ⟨some (-2147483648), [-2147483648], [], 5⟩ =
    .ok (plain (-5)) := by decide

/-- **C67.** If all arguments are constants but the call is no constant expression, a wrapped function pointer is called at run time
and other function objects cannot be called. -/
theorem callOp_not_const (c : Callable V) (p : Bool) (f : V) (args : List (Operand V)) (ha : ∀ a ∈ args, a.value = some a.conv)
    (hc : c.isConst f (args.map (·.conv)) = false) (hcall : c.call f (args.map (·.conv)) ≠ .ub .staticAssert) :
    callOp c p f args = if p then (c.call f (args.map (·.conv)) >>= fun r => .ok (plain r)) else .ub .staticAssert := by
  have h2 : args.any (fun a => !constexprValue a) = false := by
    rw [← Bool.not_eq_true, List.any_eq_true]
    rintro ⟨a, h, h'⟩
    simp [constexprValue, ha a h] at h'
  unfold callOp
  simp only [filterMap_conv args ha, hc, h2]
  simp

/-- **C67.** `cw<v>[i]`: a wrapper of the element for a constant index of a constant element, the element itself for other indices. For a constant
index of an element that is no constant it is the element itself if `v` is a pointer, and does not compile otherwise. -/
theorem indexOp_spec (c : Callable V) (k : Kind) (hk : k ≠ .arithmetic) (v : V) (i : Operand V) :
    (∀ r, i.value = some i.conv → c.isConst v [i.conv] = true → c.call v [i.conv] = .ok r → indexOp c k v i = .ok (wrapper r)) ∧
    (i.value = none → indexOp c k v i = (c.call v [i.conv] >>= fun r => .ok (plain r))) ∧
    (i.value = some i.conv → c.isConst v [i.conv] = false → k = .pointer → indexOp c k v i = (c.call v [i.conv] >>= fun r => .ok (plain r))) ∧
    (i.value = some i.conv → c.isConst v [i.conv] = false → k ≠ .pointer → indexOp c k v i = .ub .staticAssert) := by
  refine ⟨?_, ?_, ?_, ?_⟩
  · intro r h1 h2 h3
    unfold indexOp
    cases k <;> simp_all
  · intro h1
    unfold indexOp
    cases k <;> simp_all
  · intro h1 h2 h3
    unfold indexOp
    cases k <;> simp_all
  · intro h1 h2 h3
    unfold indexOp
    cases k <;> simp_all

/-- **C67 is false beyond ordinary operands.** Ambiguous are: a class derived from `constexpr_wrapper<5>` that redefines `value`,
plus another wrapper; a type trait of two wrapper types (like `std::is_same`) with any constant; and a constant plus a wrapper of a
wrapper. -/
theorem binary_ambiguous :
    binary (fun a b : Nat => .ok (a + b)) ⟨some 7, [5], [], 5⟩ (wrapper 2) = .ub .staticAssert ∧
    binary (fun a b : Nat => .ok (a + b)) ⟨some 0, [], [1, 2], 0⟩ ⟨some 3, [], [], 3⟩ = .ub .staticAssert ∧
    binary (fun a b : Nat => .ok (a + b)) ⟨some 3, [], [], 3⟩ ⟨some 10, [10], [1], 10⟩ = .ub .staticAssert := by
  decide

/-- **C67, `->`.** `cw<x>->m` is the member `x->m` if the `operator->` of `x` returns a pointer, and the member `x.m` of the value if
`x` is of a class type without `operator->`. -/
theorem arrowOp_spec (self o : Nat) (c : Bool) :
    arrowOp (.object self c (some (.pointer o))) = arrowMember (.object self c (some (.pointer o))) ∧
    arrowMember (.object self c (some (.pointer o))) = .ok o ∧
    arrowOp (.object self true none) = .ok self ∧ arrowOp (.object self false none) = .ub .staticAssert := ⟨rfl, rfl, rfl, rfl⟩

/-- **C67, `->` (exactly).** Wherever `x->m` is valid, `cw<x>->m` is the same member if `x` has an `operator->` that returns a pointer, and
ill-formed otherwise: it is ill-formed for pointers `x`, and if the `operator->` of `x` returns an object with another `operator->`. -/
theorem arrowOp_iff (x : ArrowVal) (o : Nat) (h : arrowMember x = .ok o) :
    (arrowOp x = .ok o ↔ ∃ s c, x = .object s c (some (.pointer o))) ∧
    (arrowOp x = .ok o ∨ arrowOp x = .ub .staticAssert) := by
  match x with
  | .pointer q => simp [arrowOp]
  | .object s c none => simp [arrowMember] at h
  | .object s c (some (.pointer q)) =>
    simp only [arrowMember, Outcome.ok.injEq] at h
    subst h
    simp [arrowOp]
  | .object s c (some (.object s' c' y)) => simp [arrowOp]

/-- **C67, `->` is false of the code** for a pointer, and for an `operator->` that returns another object. -/
theorem arrowOp_differs :
    (arrowMember (.pointer 3) = .ok 3 ∧ arrowOp (.pointer 3) = .ub .staticAssert) ∧
    (arrowMember (.object 0 true (some (.object 1 true (some (.pointer 3))))) = .ok 3 ∧
      arrowOp (.object 0 true (some (.object 1 true (some (.pointer 3))))) = .ub .staticAssert) := ⟨⟨rfl, rfl⟩, rfl, rfl⟩

/-! ## Concrete cases -/

private def divE (a b : Nat) : Outcome Nat := if b = 0 then .ub .div0 else .ok (a / b)

/-- `(cw<7> / integral_constant<2>) + cw<1>`, and with a run-time value -/
private def exExpr (t : Operand Nat) : Expr Nat :=
  .bin (fun a b => .ok (a + b)) (.bin divE (.leaf (wrapper 7)) (.leaf ⟨some 2, [], [], 2⟩)) (.leaf t)

example : OrdinaryLeaves (exExpr (wrapper 1)) ∧ OrdinaryLeaves (exExpr (plain 1)) := by
  simp [exExpr, OrdinaryLeaves, Ordinary, wrapper, plain]

example : compile (exExpr (wrapper 1)) = .ok (wrapper 4) ∧ compile (exExpr (plain 1)) = .ok (plain 4) := by decide

/-- division by a zero constant silently becomes a division at run time -/
example : compile (.bin divE (.leaf (wrapper 7)) (.leaf (wrapper 0))) = .ub .div0 := by decide

private def exCall : Callable Nat := ⟨fun f l => .ok (f + l.length), fun _ l => l.length < 2⟩

example : callOp exCall false 10 [wrapper 3] = .ok (wrapper 11) ∧ callOp exCall false 10 [wrapper 3, wrapper 4] = .ub .staticAssert ∧
    callOp exCall true 10 [wrapper 3, wrapper 4] = .ok (plain 12) ∧ callOp exCall false 10 [wrapper 3, plain 4] = .ok (plain 12) := by
  decide

example : indexOp exCall .otherCompound 10 (wrapper 1) = .ok (wrapper 11) := by decide

/-! ## The theorems applied to concrete data -/

private theorem exExpr_ordinary : OrdinaryLeaves (exExpr (wrapper 1)) := by
  simp [exExpr, OrdinaryLeaves, Ordinary, wrapper]

example := candidates_unique_iff (wrapper 7) (wrapper 2) (by decide) (by decide)
example := compile_spec (exExpr (wrapper 1)) exExpr_ordinary
example := callOp_const exCall false 10 [wrapper 3] (by decide) 11 (by decide) (by decide)
example := callOp_plain exCall false 10 [wrapper 3, plain 4] (plain 4) (by decide) (by decide)
example := callOp_value (⟨fun _ l => if l.length = 0 then .ub .staticAssert else .ok 5, fun _ _ => true⟩ : Callable Nat) false 10 (by decide)
example := callOp_not_const exCall true 10 [wrapper 3, wrapper 4] (by decide) (by decide) (by decide)
example := indexOp_spec exCall .otherCompound (by decide) 10 (wrapper 1)
example := arrowOp_iff (.object 0 true (some (.pointer 3))) 3 rfl

end Vir.Cw
