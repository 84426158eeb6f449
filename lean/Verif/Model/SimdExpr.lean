import Verif.Model.SimdOps
import Verif.Model.SimdWhere

/-!
# Expressions with operators on integer simds

A generic callable such as `[](auto x, auto y) { return x * 3 + (y >> 1); }` computes with the operators of `simd`
(`/repo/vir/simd.h` 1108-1768). `SimdExpr.Expr` is the syntax of such callables; `Expr.simd` runs one on simds with the functions of
`Verif/Model/SimdOps.lean`. Simplification: one element type, no compound assignments (they are equal to binary operators,
`compound_eq_binary`).
-/

namespace Vir.SimdExpr

/-- `sel op a b x y` stands for `V r = y; where(a op b, r) = x;` with result `r`. `/repo/vir/simd.h` 1108-1768, 2097-2107. -/
inductive Expr where
  | arg (k : Nat)
  | lit (c : Int)
  | bin (op : BinOp) (a b : Expr)
  | un (op : UnOp) (a : Expr)
  | sel (op : CmpOp) (a b x y : Expr)
deriving DecidableEq, Repr

/-- The expression on simds of width `w` with elements of type `t`: literals are broadcast (`/repo/vir/simd.h` 1574-1579), operators
are those of 1485-1519, 1683-1764, `sel` is a comparison and a masked assignment (2097-2107). -/
def Expr.simd (t : IntTy) (w : Nat) (args : List (List Int)) : Expr → Outcome (List Int)
  | .arg k => match args[k]? with
    | some x => .ok x
    | none => .ub .staticAssert
  | .lit c => Simd.broadcast w t.conv c
  | .bin op a b => do
    let x ← a.simd t w args
    let y ← b.simd t w args
    Simd.binary t op x y
  | .un op a => do
    let x ← a.simd t w args
    Simd.unary t op x
  | .sel op a b x y => do
    let r ← y.simd t w args
    let a ← a.simd t w args
    let b ← b.simd t w args
    let k ← Simd.compare op a b
    let x ← x.simd t w args
    Simd.whereAssign k r x

/-- All arguments exist. The operands of `/repo/vir/simd.h` 1108-1768. -/
def Expr.Uses (m : Nat) : Expr → Prop
  | .arg k => k < m
  | .lit _ => True
  | .bin _ a b => a.Uses m ∧ b.Uses m
  | .un _ a => a.Uses m
  | .sel _ a b x y => a.Uses m ∧ b.Uses m ∧ x.Uses m ∧ y.Uses m

end Vir.SimdExpr
