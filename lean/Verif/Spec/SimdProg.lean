import Verif.Model.SimdProg
import Verif.Spec.SimdExpr

/-!
# Specification of simd programs: what one lane computes

A lane has one integer per simd variable and one `bool` per mask variable. `ExValue`, `MkValue` and `LaneRun` tell what the statements
mean for these, as if the program were written for numbers: `where(m, x) = e` is `if (m) x = e`, and `while (any_of(m)) body` is
`while (m) body`.
-/

namespace Vir.Spec
open SimdProg

/-- The variables of one lane. -/
abbrev Lane := List Int × List Bool

/-- The expression has the value `v` if the variables are `xs`: all operators are defined on these values. -/
inductive ExValue (xs : List Int) : Ex → Int → Prop where
  | var {k : Nat} {v : Int} : xs[k]? = some v → ExValue xs (.var k) v
  | lit {t : IntTy} {c v : Int} : IsWrapped t c v → ExValue xs (.lit t c) v
  | bin {t : IntTy} {op : BinOp} {a b : Ex} {x y v : Int} : ExValue xs a x → ExValue xs b y → ¬ IsUndefined t op x y →
      IsResult t op x y v → ExValue xs (.bin t op a b) v
  | un {t : IntTy} {op : UnOp} {a : Ex} {x v : Int} : ExValue xs a x → ¬ IsUnUndefined t op x → IsUnResult t op x v →
      ExValue xs (.un t op a) v
  | cast {s t : IntTy} {a : Ex} {x v : Int} : ExValue xs a x → IsWrapped t x v → ExValue xs (.cast s t a) v

/-- The condition has the value `b`. -/
inductive MkValue (l : Lane) : Mk → Bool → Prop where
  | mvar {j : Nat} {b : Bool} : l.2[j]? = some b → MkValue l (.mvar j) b
  | cmp_true {op : CmpOp} {t : IntTy} {a b : Ex} {x y : Int} : ExValue l.1 a x → ExValue l.1 b y → cmpHolds op x y →
      MkValue l (.cmp op t a b) true
  | cmp_false {op : CmpOp} {t : IntTy} {a b : Ex} {x y : Int} : ExValue l.1 a x → ExValue l.1 b y → ¬ cmpHolds op x y →
      MkValue l (.cmp op t a b) false
  | and {a b : Mk} {x y : Bool} : MkValue l a x → MkValue l b y → MkValue l (.and a b) (x && y)
  | or {a b : Mk} {x y : Bool} : MkValue l a x → MkValue l b y → MkValue l (.or a b) (x || y)
  | not {a : Mk} {x : Bool} : MkValue l a x → MkValue l (.not a) (!x)

/-- The operator of `++` or `--`. -/
def stepOp (up : Bool) : BinOp := if up then .add else .sub

/-- The statement takes the lane from one state to another. All operands are evaluated even if the lane is not selected (they are
simds); the operator of `where(m, x) op= e` is not. A lane that has left a loop takes part in the iterations of the other lanes: the
body must then be defined and change nothing. -/
inductive LaneRun : Stmt → Lane → Lane → Prop where
  | skip {l : Lane} : LaneRun .skip l l
  | seq {a b : Stmt} {l l' l'' : Lane} : LaneRun a l l' → LaneRun b l' l'' → LaneRun (.seq a b) l l''
  | assign {k : Nat} {e : Ex} {v : Int} {l : Lane} : ExValue l.1 e v → LaneRun (.assign k e) l (l.1.set k v, l.2)
  | compound {t : IntTy} {op : BinOp} {k : Nat} {e : Ex} {x y v : Int} {l : Lane} : ExValue l.1 e y → l.1[k]? = some x →
      ¬ IsUndefined t op x y → IsResult t op x y v → LaneRun (.compound t op k e) l (l.1.set k v, l.2)
  | step {t : IntTy} {up : Bool} {k : Nat} {x v : Int} {l : Lane} : l.1[k]? = some x →
      ¬ IsUndefined t (stepOp up) x 1 → IsResult t (stepOp up) x 1 v → LaneRun (.step t up k) l (l.1.set k v, l.2)
  | where_true {m : Mk} {k : Nat} {e : Ex} {v : Int} {l : Lane} : MkValue l m true → ExValue l.1 e v →
      LaneRun (.whereAssign m k e) l (l.1.set k v, l.2)
  | where_false {m : Mk} {k : Nat} {e : Ex} {v : Int} {l : Lane} : MkValue l m false → ExValue l.1 e v →
      LaneRun (.whereAssign m k e) l l
  | whereCompound_true {t : IntTy} {op : BinOp} {m : Mk} {k : Nat} {e : Ex} {x y v : Int} {l : Lane} : MkValue l m true →
      ExValue l.1 e y → l.1[k]? = some x → ¬ IsUndefined t op x y → IsResult t op x y v →
      LaneRun (.whereCompound t op m k e) l (l.1.set k v, l.2)
  | whereCompound_false {t : IntTy} {op : BinOp} {m : Mk} {k : Nat} {e : Ex} {y : Int} {l : Lane} : MkValue l m false →
      ExValue l.1 e y → LaneRun (.whereCompound t op m k e) l l
  | whereStep_true {t : IntTy} {up : Bool} {m : Mk} {k : Nat} {x v : Int} {l : Lane} : MkValue l m true →
      l.1[k]? = some x → ¬ IsUndefined t (stepOp up) x 1 → IsResult t (stepOp up) x 1 v →
      LaneRun (.whereStep t up m k) l (l.1.set k v, l.2)
  | whereStep_false {t : IntTy} {up : Bool} {m : Mk} {k : Nat} {l : Lane} : MkValue l m false → LaneRun (.whereStep t up m k) l l
  | setMask {j : Nat} {m : Mk} {b : Bool} {l : Lane} : MkValue l m b → LaneRun (.setMask j m) l (l.1, l.2.set j b)
  | loop_more {m : Mk} {body : Stmt} {l l' l'' : Lane} : MkValue l m true → LaneRun body l l' → LaneRun (.loop m body) l' l'' →
      LaneRun (.loop m body) l l''
  | loop_done {m : Mk} {body : Stmt} {l : Lane} : MkValue l m false → LaneRun body l l → LaneRun (.loop m body) l l

/-- The expression is a simd of type `t`, if the variables have the types `ts`. -/
def ExTyped (ts : List IntTy) : Ex → IntTy → Prop
  | .var k, t => ts[k]? = some t
  | .lit t' _, t => t' = t ∧ ValidTy t
  | .bin t' _ a b, t => t' = t ∧ ExTyped ts a t ∧ ExTyped ts b t
  | .un t' _ a, t => t' = t ∧ ExTyped ts a t
  | .cast s t' a, t => t' = t ∧ ValidTy t ∧ ExTyped ts a s

/-- The operands of the mask expression exist and have the same type; there are `nm` mask variables. -/
def MkTyped (ts : List IntTy) (nm : Nat) : Mk → Prop
  | .mvar j => j < nm
  | .cmp _ t a b => ExTyped ts a t ∧ ExTyped ts b t
  | .and a b | .or a b => MkTyped ts nm a ∧ MkTyped ts nm b
  | .not a => MkTyped ts nm a

/-- The program compiles: types match, variables exist. -/
def Typed (ts : List IntTy) (nm : Nat) : Stmt → Prop
  | .skip => True
  | .seq a b => Typed ts nm a ∧ Typed ts nm b
  | .assign k e => ∃ t, ts[k]? = some t ∧ ExTyped ts e t
  | .compound t _ k e => ts[k]? = some t ∧ ExTyped ts e t
  | .step t _ k => ts[k]? = some t
  | .whereAssign m k e => MkTyped ts nm m ∧ ∃ t, ts[k]? = some t ∧ ExTyped ts e t
  | .whereCompound t _ m k e => MkTyped ts nm m ∧ ts[k]? = some t ∧ ExTyped ts e t
  | .whereStep t _ m k => MkTyped ts nm m ∧ ts[k]? = some t
  | .setMask j m => j < nm ∧ MkTyped ts nm m
  | .loop m body => MkTyped ts nm m ∧ Typed ts nm body

/-- The types of the variables are integer types of the platform with more than one bit. -/
def VarTypes (ts : List IntTy) : Prop := ∀ t ∈ ts, ValidTy t ∧ 1 < t.bits

/-- The variables are simds and masks of width `w`, with elements of the types `ts`. -/
structure HasShape (ts : List IntTy) (nm w : Nat) (s : State) : Prop where
  vars : s.vars.length = ts.length
  var : ∀ (k : Nat) (t : IntTy) (x : List Int), ts[k]? = some t → s.vars[k]? = some x → x.length = w ∧ LanesOf t x
  masks : s.masks.length = nm
  mask : ∀ b ∈ s.masks, b.length = w

/-- Lane `i` of the variables. -/
def laneOf (s : State) (i : Nat) : Lane := (s.vars.filterMap (·[i]?), s.masks.filterMap (·[i]?))

/-- No loops. -/
def LoopFree : Stmt → Prop
  | .seq a b => LoopFree a ∧ LoopFree b
  | .loop _ _ => False
  | _ => True

/-- The statement can take the lane from one state to another, if a lane goes through the body of a loop as often as the loop asks for. If
`idle`, a lane may also go through the body although its condition is false, because another lane needs it; it leaves the loop only
with a false condition. Without `idle` this is the program on numbers. -/
inductive LaneSteps (idle : Prop) : Stmt → Lane → Lane → Prop where
  | simple {p : Stmt} {l l' : Lane} : LoopFree p → LaneRun p l l' → LaneSteps idle p l l'
  | seq {a b : Stmt} {l l' l'' : Lane} : LaneSteps idle a l l' → LaneSteps idle b l' l'' → LaneSteps idle (.seq a b) l l''
  | again {m : Mk} {body : Stmt} {c : Bool} {l l' l'' : Lane} : MkValue l m c → (c = false → idle) → LaneSteps idle body l l' →
      LaneSteps idle (.loop m body) l' l'' → LaneSteps idle (.loop m body) l l''
  | leave {m : Mk} {body : Stmt} {l : Lane} : MkValue l m false → LaneSteps idle (.loop m body) l l

/-- Every statement is masked with the mask variable `j`, which can only lose lanes. -/
def MaskedBy (j : Nat) : Stmt → Prop
  | .skip => True
  | .seq a b => MaskedBy j a ∧ MaskedBy j b
  | .whereAssign m _ _ | .whereCompound _ _ m _ _ | .whereStep _ _ m _ => m = .mvar j
  | .setMask j' m => j' = j ∧ ∃ m', m = .and (.mvar j) m'
  | _ => False

/-- All loops have the form `while (any_of(k)) body` where everything in `body` is masked with `k`. -/
def MaskedLoops : Stmt → Prop
  | .seq a b => MaskedLoops a ∧ MaskedLoops b
  | .loop m body => ∃ j, m = .mvar j ∧ MaskedBy j body
  | _ => True

end Vir.Spec
