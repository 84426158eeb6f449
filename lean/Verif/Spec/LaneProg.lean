import Verif.Model.LaneProg

/-!
# Specification of simd programs with elements of any type: what one lane computes

A lane has one element per simd variable and one `bool` per mask variable. `Value`, `Cond` and `Run` tell what the program means for these, as
if it were written for single elements: `where(m, x) = e` is `if (m) x = e`, and `while (any_of(m)) body` is `while (m) body`.
-/

namespace Vir.Spec.OneLane
open LaneProg

variable {α : Type}

/-- The variables of one lane. -/
abbrev Vars (α : Type) := List α × List Bool

/-- In lane `i`, the expression has the value `v` if the variables are `xs`: all operations are defined on these values. -/
inductive Value (i : Nat) (xs : List α) : Ex α → α → Prop where
  | var {k : Nat} {v : α} : xs[k]? = some v → Value i xs (.var k) v
  | gen {f : Nat → Outcome α} {v : α} : f i = .ok v → Value i xs (.gen f) v
  | un {f : α → Outcome α} {a : Ex α} {x v : α} : Value i xs a x → f x = .ok v → Value i xs (.un f a) v
  | bin {f : α → α → Outcome α} {a b : Ex α} {x y v : α} : Value i xs a x → Value i xs b y → f x y = .ok v → Value i xs (.bin f a b) v

/-- In lane `i`, the condition has the value `b`. -/
inductive Cond (i : Nat) (l : Vars α) : Mk α → Bool → Prop where
  | mvar {j : Nat} {b : Bool} : l.2[j]? = some b → Cond i l (.mvar j) b
  | cmp {r : α → α → Bool} {a b : Ex α} {x y : α} : Value i l.1 a x → Value i l.1 b y → Cond i l (.cmp r a b) (r x y)
  | and {a b : Mk α} {x y : Bool} : Cond i l a x → Cond i l b y → Cond i l (.and a b) (x && y)
  | or {a b : Mk α} {x y : Bool} : Cond i l a x → Cond i l b y → Cond i l (.or a b) (x || y)
  | not {a : Mk α} {x : Bool} : Cond i l a x → Cond i l (.not a) (!x)

/-- In lane `i`, the statement can take the variables from one state to another. All operands are evaluated even if the lane is not
selected (they are simds); the operation of `where(m, x) op= e` is not. If `idle`, a lane may also go through the body of a loop although its
condition is false, because another lane needs it; it leaves the loop only with a false condition. Without `idle` this is the program on
single elements. -/
inductive Run (idle : Prop) (i : Nat) : Stmt α → Vars α → Vars α → Prop where
  | skip {l : Vars α} : Run idle i .skip l l
  | seq {a b : Stmt α} {l l' l'' : Vars α} : Run idle i a l l' → Run idle i b l' l'' → Run idle i (.seq a b) l l''
  | assign {k : Nat} {e : Ex α} {v : α} {l : Vars α} : Value i l.1 e v → Run idle i (.assign k e) l (l.1.set k v, l.2)
  | compound {f : α → α → Outcome α} {k : Nat} {e : Ex α} {x y v : α} {l : Vars α} : Value i l.1 e y → l.1[k]? = some x →
      f x y = .ok v → Run idle i (.compound f k e) l (l.1.set k v, l.2)
  | where_true {m : Mk α} {k : Nat} {e : Ex α} {v : α} {l : Vars α} : Cond i l m true → Value i l.1 e v →
      Run idle i (.whereAssign m k e) l (l.1.set k v, l.2)
  | where_false {m : Mk α} {k : Nat} {e : Ex α} {v : α} {l : Vars α} : Cond i l m false → Value i l.1 e v →
      Run idle i (.whereAssign m k e) l l
  | whereCompound_true {f : α → α → Outcome α} {m : Mk α} {k : Nat} {e : Ex α} {x y v : α} {l : Vars α} : Cond i l m true →
      Value i l.1 e y → l.1[k]? = some x → f x y = .ok v → Run idle i (.whereCompound f m k e) l (l.1.set k v, l.2)
  | whereCompound_false {f : α → α → Outcome α} {m : Mk α} {k : Nat} {e : Ex α} {y : α} {l : Vars α} : Cond i l m false →
      Value i l.1 e y → Run idle i (.whereCompound f m k e) l l
  | setMask {j : Nat} {m : Mk α} {b : Bool} {l : Vars α} : Cond i l m b → Run idle i (.setMask j m) l (l.1, l.2.set j b)
  | whereMask_true {m m' : Mk α} {j : Nat} {b : Bool} {l : Vars α} : Cond i l m true → Cond i l m' b →
      Run idle i (.whereMask m j m') l (l.1, l.2.set j b)
  | whereMask_false {m m' : Mk α} {j : Nat} {b : Bool} {l : Vars α} : Cond i l m false → Cond i l m' b →
      Run idle i (.whereMask m j m') l l
  | again {m : Mk α} {body : Stmt α} {c : Bool} {l l' l'' : Vars α} : Cond i l m c → (c = false → idle) → Run idle i body l l' →
      Run idle i (.loop m body) l' l'' → Run idle i (.loop m body) l l''
  | leave {m : Mk α} {body : Stmt α} {l : Vars α} : Cond i l m false → Run idle i (.loop m body) l l

/-- Which variables the program uses: `nv` simd variables and `nm` mask variables are declared. -/
def ExUses (nv : Nat) : Ex α → Prop
  | .var k => k < nv
  | .gen _ => True
  | .un _ a => ExUses nv a
  | .bin _ a b => ExUses nv a ∧ ExUses nv b

/-- The operands of the mask expression are declared. -/
def MkUses (nv nm : Nat) : Mk α → Prop
  | .mvar j => j < nm
  | .cmp _ a b => ExUses nv a ∧ ExUses nv b
  | .and a b | .or a b => MkUses nv nm a ∧ MkUses nv nm b
  | .not a => MkUses nv nm a

/-- All variables of the program are declared. -/
def Uses (nv nm : Nat) : Stmt α → Prop
  | .skip => True
  | .seq a b => Uses nv nm a ∧ Uses nv nm b
  | .assign k e => k < nv ∧ ExUses nv e
  | .compound _ k e => k < nv ∧ ExUses nv e
  | .whereAssign m k e => MkUses nv nm m ∧ k < nv ∧ ExUses nv e
  | .whereCompound _ m k e => MkUses nv nm m ∧ k < nv ∧ ExUses nv e
  | .setMask j m => j < nm ∧ MkUses nv nm m
  | .whereMask m j m' => MkUses nv nm m ∧ j < nm ∧ MkUses nv nm m'
  | .loop m body => MkUses nv nm m ∧ Uses nv nm body

/-- There are `nv` simds and `nm` masks, all of width `w`. -/
structure Shape (nv nm w : Nat) (s : State α) : Prop where
  vars : s.vars.length = nv
  var : ∀ x ∈ s.vars, x.length = w
  masks : s.masks.length = nm
  mask : ∀ b ∈ s.masks, b.length = w

/-- Lane `i` of the variables. -/
def lane (s : State α) (i : Nat) : Vars α := (s.vars.filterMap (·[i]?), s.masks.filterMap (·[i]?))

/-- `P` without `k`. -/
def Minus (P : Nat → Prop) (k : Nat) : Nat → Prop := fun x => P x ∧ x ≠ k

/-- The expression uses no variable of `V`. -/
def ExAvoids (V : Nat → Prop) : Ex α → Prop
  | .var k => ¬ V k
  | .gen _ => True
  | .un _ a => ExAvoids V a
  | .bin _ a b => ExAvoids V a ∧ ExAvoids V b

/-- The mask expression uses no simd variable of `V` and no mask variable of `M`. -/
def MkAvoids (V M : Nat → Prop) : Mk α → Prop
  | .mvar j => ¬ M j
  | .cmp _ a b => ExAvoids V a ∧ ExAvoids V b
  | .and a b | .or a b => MkAvoids V M a ∧ MkAvoids V M b
  | .not a => MkAvoids V M a

/-- The mask expression is false if all mask variables of `G` are: it has the form `k`, `m && k` or `k || k'` with `k` and `k'` in `G`. -/
def Guarded (G : Nat → Prop) : Mk α → Prop
  | .mvar j => G j
  | .and a b => Guarded G a ∨ Guarded G b
  | .or a b => Guarded G a ∧ Guarded G b
  | _ => False

/-- Masked programming. The simd variables `V` and the mask variables `M` are only used locally, that is after an assignment to the whole variable
in the same block. Loops have the form `while (any_of(k)) body`. In the body of a loop, all assignments to variables that are not local are masked
with `k` or something that implies it (the masks `G`), and inner loops run over such masks, too; `top` is true outside of loops. -/
inductive Masked : Bool → (Nat → Prop) → (Nat → Prop) → (Nat → Prop) → Stmt α → Prop where
  | skip {top : Bool} {G V M : Nat → Prop} : Masked top G V M .skip
  | seq {top : Bool} {G V M : Nat → Prop} {a b : Stmt α} : Masked top G V M a → Masked top G V M b → Masked top G V M (.seq a b)
  | assign {G V M : Nat → Prop} {k : Nat} {e : Ex α} : ¬ V k → ExAvoids V e → Masked true G V M (.assign k e)
  | compound {G V M : Nat → Prop} {f : α → α → Outcome α} {k : Nat} {e : Ex α} : ¬ V k → ExAvoids V e → Masked true G V M (.compound f k e)
  | whereAssign {top : Bool} {G V M : Nat → Prop} {m : Mk α} {k : Nat} {e : Ex α} : ¬ V k → ExAvoids V e → MkAvoids V M m →
      (top = false → Guarded G m) → Masked top G V M (.whereAssign m k e)
  | whereCompound {top : Bool} {G V M : Nat → Prop} {f : α → α → Outcome α} {m : Mk α} {k : Nat} {e : Ex α} : ¬ V k → ExAvoids V e →
      MkAvoids V M m → (top = false → Guarded G m) → Masked top G V M (.whereCompound f m k e)
  | setMask {top : Bool} {G V M : Nat → Prop} {j : Nat} {m : Mk α} : ¬ M j → MkAvoids V M m → (top = false → G j ∧ Guarded G m) →
      Masked top G V M (.setMask j m)
  | whereMask {top : Bool} {G V M : Nat → Prop} {m m' : Mk α} {j : Nat} : ¬ M j → MkAvoids V M m → MkAvoids V M m' →
      (top = false → Guarded G m) → Masked top G V M (.whereMask m j m')
  | localVar {top : Bool} {G V M : Nat → Prop} {k : Nat} {e : Ex α} {rest : Stmt α} : V k → ExAvoids V e →
      Masked top G (Minus V k) M rest → Masked top G V M (.seq (.assign k e) rest)
  | localMask {top : Bool} {G G' V M : Nat → Prop} {j : Nat} {m : Mk α} {rest : Stmt α} : M j → MkAvoids V M m →
      (∀ x, G' x → Minus G j x ∨ x = j ∧ Guarded G m) → Masked top G' V (Minus M j) rest → Masked top G V M (.seq (.setMask j m) rest)
  | loop {top : Bool} {G V M : Nat → Prop} {j : Nat} {body : Stmt α} : ¬ M j → (top = false → G j) → Masked false (· = j) V M body →
      Masked top G V M (.loop (.mvar j) body)

/-- Up to the local variables `V` and `M`, both states are the same. -/
structure Same (V M : Nat → Prop) (l l' : Vars α) : Prop where
  vars : l.1.length = l'.1.length
  masks : l.2.length = l'.2.length
  var : ∀ k, ¬ V k → l.1[k]? = l'.1[k]?
  mask : ∀ j, ¬ M j → l.2[j]? = l'.2[j]?

/-- The operations of the expression are defined for all elements, such as those on floating-point numbers. -/
def ExTotal : Ex α → Prop
  | .var _ => True
  | .gen f => ∀ i, ∃ v, f i = .ok v
  | .un f a => (∀ x, ∃ v, f x = .ok v) ∧ ExTotal a
  | .bin f a b => (∀ x y, ∃ v, f x y = .ok v) ∧ ExTotal a ∧ ExTotal b

/-- The same for the operands of comparisons. -/
def MkTotal : Mk α → Prop
  | .mvar _ => True
  | .cmp _ a b => ExTotal a ∧ ExTotal b
  | .and a b | .or a b => MkTotal a ∧ MkTotal b
  | .not a => MkTotal a

/-- The same for all operands in a program. This is no condition on the operation of `x op= e`. -/
def OperandsTotal : Stmt α → Prop
  | .skip => True
  | .seq a b => OperandsTotal a ∧ OperandsTotal b
  | .assign _ e | .compound _ _ e => ExTotal e
  | .whereAssign m _ e | .whereCompound _ m _ e => MkTotal m ∧ ExTotal e
  | .setMask _ m => MkTotal m
  | .whereMask m _ m' => MkTotal m ∧ MkTotal m'
  | .loop m body => MkTotal m ∧ OperandsTotal body

/-- The same for the bodies of loops. -/
def LoopsTotal : Stmt α → Prop
  | .seq a b => LoopsTotal a ∧ LoopsTotal b
  | .loop _ body => OperandsTotal body
  | _ => True

/-- No loops. -/
def NoLoops : Stmt α → Prop
  | .seq a b => NoLoops a ∧ NoLoops b
  | .loop _ _ => False
  | _ => True

end Vir.Spec.OneLane
