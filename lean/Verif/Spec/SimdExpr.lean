import Verif.Model.SimdExpr
import Verif.Spec.Arith

/-!
# Specification of expressions on one lane

`HasValue`: the value of an expression if every operator yields a value of the element type (as `simd` does). `PlainValue`: the value
of the same expression in C++ on numbers instead of simds, where narrow types are promoted to `int` and `?:` evaluates one branch only.
-/

namespace Vir.Spec
open SimdExpr

/-- The result of a unary operator on a value of type `t`. -/
def IsUnResult (t : IntTy) : UnOp → Int → Int → Prop
  | .plus, a, r => r = a
  | .neg, a, r => IsWrapped t (-a) r
  | .compl, a, r => t.Has r ∧ ∀ j < t.bits, bitOf r j = !bitOf a j

/-- The negation of the lowest value overflows. -/
def IsUnUndefined (t : IntTy) : UnOp → Int → Prop
  | .neg, a => t.signed = true ∧ 32 ≤ t.bits ∧ a = t.lowest
  | _, _ => False

/-- The expression has the value `v` if the arguments are `xs`; all operators are defined and give values of type `t`. -/
inductive HasValue (t : IntTy) (xs : List Int) : Expr → Int → Prop where
  | arg {k : Nat} {v : Int} : xs[k]? = some v → HasValue t xs (.arg k) v
  | lit {c v : Int} : IsWrapped t c v → HasValue t xs (.lit c) v
  | bin {op : BinOp} {a b : Expr} {x y v : Int} : HasValue t xs a x → HasValue t xs b y → ¬ IsUndefined t op x y →
      IsResult t op x y v → HasValue t xs (.bin op a b) v
  | un {op : UnOp} {a : Expr} {x v : Int} : HasValue t xs a x → ¬ IsUnUndefined t op x → IsUnResult t op x v →
      HasValue t xs (.un op a) v
  | sel_true {op : CmpOp} {a b x y : Expr} {p q v u : Int} : HasValue t xs a p → HasValue t xs b q → HasValue t xs x v →
      HasValue t xs y u → cmpHolds op p q → HasValue t xs (.sel op a b x y) v
  | sel_false {op : CmpOp} {a b x y : Expr} {p q v u : Int} : HasValue t xs a p → HasValue t xs b q → HasValue t xs x u →
      HasValue t xs y v → ¬ cmpHolds op p q → HasValue t xs (.sel op a b x y) v

/-- The expression on numbers of type `t` in C++: operators compute in `p`, the promoted type. Literals are values of `t`. -/
inductive PlainValue (t p : IntTy) (xs : List Int) : Expr → Int → Prop where
  | arg {k : Nat} {v : Int} : xs[k]? = some v → PlainValue t p xs (.arg k) v
  | lit {c v : Int} : IsWrapped t c v → PlainValue t p xs (.lit c) v
  | bin {op : BinOp} {a b : Expr} {x y v : Int} : PlainValue t p xs a x → PlainValue t p xs b y → ¬ IsUndefined p op x y →
      IsResult p op x y v → PlainValue t p xs (.bin op a b) v
  | un {op : UnOp} {a : Expr} {x v : Int} : PlainValue t p xs a x → ¬ IsUnUndefined p op x → IsUnResult p op x v →
      PlainValue t p xs (.un op a) v
  | sel_true {op : CmpOp} {a b x y : Expr} {c d v : Int} : PlainValue t p xs a c → PlainValue t p xs b d → cmpHolds op c d →
      PlainValue t p xs x v → PlainValue t p xs (.sel op a b x y) v
  | sel_false {op : CmpOp} {a b x y : Expr} {c d v : Int} : PlainValue t p xs a c → PlainValue t p xs b d → ¬ cmpHolds op c d →
      PlainValue t p xs y v → PlainValue t p xs (.sel op a b x y) v

/-- No comparison and selection. -/
def NoSelect : Expr → Prop
  | .arg _ | .lit _ => True
  | .bin _ a b => NoSelect a ∧ NoSelect b
  | .un _ a => NoSelect a
  | .sel .. => False

/-- The low bits of the value depend on the low bits of the arguments only. -/
def LowBits : Expr → Prop
  | .arg _ | .lit _ => True
  | .bin op a b => (op = .add ∨ op = .sub ∨ op = .mul ∨ op = .and ∨ op = .or ∨ op = .xor) ∧ LowBits a ∧ LowBits b
  | .un _ a => LowBits a
  | .sel .. => False

/-- Lane `i` of the arguments. -/
def laneArgs (args : List (List Int)) (i : Nat) : List Int := args.filterMap (·[i]?)

/-- The arguments are simds of width `w` with elements of type `t`. -/
def SimdArgs (t : IntTy) (w : Nat) (args : List (List Int)) : Prop := ∀ a ∈ args, a.length = w ∧ LanesOf t a

end Vir.Spec
