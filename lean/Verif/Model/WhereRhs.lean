import Verif.Model.SimdWhere
import Verif.Model.Casts

/-!
# Right-hand sides of `where` expressions (`/repo/vir/simd.h` 2074-2087, 2096-2132, 2194-2213)

Elements are integers of a type `t`. A right-hand side of another type is converted first.
-/

namespace Vir.WhereRhs
open Simd

/-- What can stand on the right of `where(k, v) op= ...` for a `simd` of `n` lanes of type `t`. `/repo/vir/simd.h` 2077-2132. -/
inductive Rhs where
  /-- an object of the same type -/
  | same (x : List Int)
  /-- an object of arithmetic type -/
  | scalar (x : Int)
  /-- a simd of another type; `implicit` tells whether it converts implicitly (`/repo/vir/simd.h` 1582-1590) -/
  | simd (implicit : Bool) (x : List Int)
  /-- a mask -/
  | mask (x : List Bool)
deriving DecidableEq, Repr

/-- `where_expression::as_simd` (`/repo/vir/simd.h` 2074-2087). Everything arithmetic converts to the element type; what does not
convert at all is cast with `static_simd_cast`, which accepts simds of any number of lanes (1769-1779) and masks of `n`
lanes (1787-1791). -/
def asSimd (t : IntTy) (n : Nat) : Rhs → Outcome (List Int)
  | .same x => .ok x
  | .scalar x => gen n fun _ => .ok (t.conv x)
  | .simd true x => Casts.convertLanes n t.conv x
  | .simd false x => staticSimdCast n t.conv x
  | .mask x => if x.length = n then Casts.maskToSimd n (fun b => if b then 1 else 0) x else .ub .staticAssert

/-- `where(k, v) = x` (`/repo/vir/simd.h` 2097-2107). -/
def assign (t : IntTy) (k : List Bool) (v : List Int) (x : Rhs) : Outcome (List Int) := do
  let rhs ← asSimd t v.length x
  whereAssign k v rhs

/-- `where(k, v) op= x` (`/repo/vir/simd.h` 2109-2132). -/
def opAssign (t : IntTy) (op : BinOp) (k : List Bool) (v : List Int) (x : Rhs) : Outcome (List Int) := do
  let rhs ← asSimd t v.length x
  whereOpAssign (op.eval t) k v rhs

/-- `m_value op= x` for a value of type `t` and an `x` of type `s`: the usual arithmetic conversions, except for shifts, and the
conversion back to `t`. `/repo/vir/simd.h` 2197-2213. -/
def compound (t s : IntTy) (op : BinOp) (v x : Int) : Outcome Int :=
  match op with
  | .shl | .shr => do
    let r ← op.evalIn t.promote v x
    .ok (t.conv r)
  | _ => do
    let r ← op.evalIn (Convert.commonInt t s) ((Convert.commonInt t s).conv v) ((Convert.commonInt t s).conv x)
    .ok (t.conv r)

/-- `where(bool, v) op= x` for a `v` of arithmetic type (`/repo/vir/simd.h` 2197-2213). -/
def scalarOpAssign (t s : IntTy) (op : BinOp) (k : Bool) (v x : Int) : Outcome Int := whereBool (fun v => compound t s op v x) k v

end Vir.WhereRhs
