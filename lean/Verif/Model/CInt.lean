import Verif.Outcome

/-!
# C++ integer arithmetic

The arithmetic of the built-in integer types as the simd operators use it (LP64: `int` has 32 bits): integer
promotions, wrapping of unsigned types, undefined signed overflow, division and shifts. Signed types are two's
complement; conversions to a signed type wrap (C++20, and what GCC and Clang do before). `<<` follows C++20, where
shifting a negative value is defined.
-/

namespace Vir

/-- A built-in integer type: its width and signedness. The element types of `/repo/vir/simd.h` 1231-1768. -/
structure IntTy where
  bits : Nat
  signed : Bool
deriving DecidableEq, Repr

namespace IntTy

/-- `signed char`, an element type of `/repo/vir/simd.h` 1231-1768. -/
def i8 : IntTy := ⟨8, true⟩
/-- `unsigned char`, an element type of `/repo/vir/simd.h` 1231-1768. -/
def u8 : IntTy := ⟨8, false⟩
/-- `short`, an element type of `/repo/vir/simd.h` 1231-1768. -/
def i16 : IntTy := ⟨16, true⟩
/-- `unsigned short`, an element type of `/repo/vir/simd.h` 1231-1768. -/
def u16 : IntTy := ⟨16, false⟩
/-- `int`, an element type of `/repo/vir/simd.h` 1231-1768. -/
def i32 : IntTy := ⟨32, true⟩
/-- `unsigned int`, an element type of `/repo/vir/simd.h` 1231-1768. -/
def u32 : IntTy := ⟨32, false⟩
/-- `long`, an element type of `/repo/vir/simd.h` 1231-1768. -/
def i64 : IntTy := ⟨64, true⟩
/-- `unsigned long`, an element type of `/repo/vir/simd.h` 1231-1768. -/
def u64 : IntTy := ⟨64, false⟩

/-- `std::numeric_limits<T>::lowest()`. Used in `/repo/vir/simd.h` 2397. -/
def lowest (t : IntTy) : Int := if t.signed then -2 ^ (t.bits - 1) else 0

/-- `std::numeric_limits<T>::max()`. Used in `/repo/vir/simd.h` 2379. -/
def max (t : IntTy) : Int := if t.signed then 2 ^ (t.bits - 1) - 1 else 2 ^ t.bits - 1

/-- `x` is a value of the type. The values of the elements in `/repo/vir/simd.h` 1231-1768. -/
def Has (t : IntTy) (x : Int) : Prop := t.lowest ≤ x ∧ x ≤ t.max

instance (t : IntTy) (x : Int) : Decidable (t.Has x) := by unfold Has; infer_instance

/-- Conversion of an integer to the type. `static_cast<T>`, `/repo/vir/simd.h` 1227, 1555, 1578, 1589, 1773, 1779. -/
def conv (t : IntTy) (x : Int) : Int := if t.signed then x.bmod (2 ^ t.bits) else x % 2 ^ t.bits

/-- Integer promotion: types narrower than `int` become `int`. The operands in `/repo/vir/simd.h` 1126-1227, 1316-1391, 1436-1519, 1645-1740. -/
def promote (t : IntTy) : IntTy := if t.bits < 32 then i32 else t

/-- Result of an arithmetic operation in the type: unsigned types wrap, signed overflow is undefined. The operators in `/repo/vir/simd.h` 1358-1391, 1691-1740. -/
def arith (t : IntTy) (x : Int) : Outcome Int :=
  if t.signed then (if t.Has x then .ok x else .ub .overflow) else .ok (t.conv x)

/-- Bitwise operation on the two's complement representation. The operators in `/repo/vir/simd.h` 1134-1153, 1176-1195, 1445-1467, 1489-1499. -/
def bitwise (t : IntTy) (op : BitVec t.bits → BitVec t.bits → BitVec t.bits) (x y : Int) : Int :=
  t.conv (op (BitVec.ofInt t.bits x) (BitVec.ofInt t.bits y)).toNat

end IntTy

/-- Binary operators of simd. The binary operators in `/repo/vir/simd.h` 1169-1223, 1375-1391, 1485-1515, 1724-1740. -/
inductive BinOp where
  | add | sub | mul | div | mod | and | or | xor | shl | shr
deriving DecidableEq, Repr

/-- The built-in binary operator applied to two operands of the (promoted) type `p`. The binary operators in `/repo/vir/simd.h` 1169-1223, 1375-1391, 1485-1515, 1724-1740. -/
def BinOp.evalIn (p : IntTy) : BinOp → Int → Int → Outcome Int
  | .add, x, y => p.arith (x + y)
  | .sub, x, y => p.arith (x - y)
  | .mul, x, y => p.arith (x * y)
  | .div, x, y => if y = 0 then .ub .div0 else p.arith (x.tdiv y)
  | .mod, x, y => if y = 0 then .ub .div0 else do
      let _ ← p.arith (x.tdiv y)
      .ok (x.tmod y)
  | .and, x, y => .ok (p.bitwise (· &&& ·) x y)
  | .or, x, y => .ok (p.bitwise (· ||| ·) x y)
  | .xor, x, y => .ok (p.bitwise (· ^^^ ·) x y)
  | .shl, x, y => if y < 0 ∨ p.bits ≤ y then .ub .shift else .ok (p.conv (x * 2 ^ y.toNat))
  | .shr, x, y => if y < 0 ∨ p.bits ≤ y then .ub .shift else .ok (x / 2 ^ y.toNat)

/-- `static_cast<T>(x op y)` for operands of type `t`. The binary operators in `/repo/vir/simd.h` 1169-1223, 1375-1391, 1485-1515, 1724-1740. -/
def BinOp.eval (t : IntTy) (op : BinOp) (x y : Int) : Outcome Int := do
  let r ← op.evalIn t.promote x y
  .ok (t.conv r)

/-- Unary operators of simd that yield a simd. The unary operators in `/repo/vir/simd.h` 1225-1227, 1350-1356, 1517-1519, 1683-1689. -/
inductive UnOp where
  | plus | neg | compl
deriving DecidableEq, Repr

/-- `static_cast<T>(op x)` for an operand of type `t`. The unary operators in `/repo/vir/simd.h` 1225-1227, 1350-1356, 1517-1519, 1683-1689. -/
def UnOp.eval (t : IntTy) (op : UnOp) (x : Int) : Outcome Int :=
  match op with
  | .plus => .ok (t.conv x)
  | .neg => do
      let r ← t.promote.arith (-x)
      .ok (t.conv r)
  | .compl => .ok (t.conv (t.promote.conv (-x - 1)))

/-- `++x` and `--x` on an operand of type `t`: `x = x ± 1` (computed in the promoted type). `/repo/vir/simd.h` 1315-1343, 1644-1676. -/
def incr (t : IntTy) (x : Int) : Outcome Int := BinOp.eval t .add x 1
@[inherit_doc incr] def decr (t : IntTy) (x : Int) : Outcome Int := BinOp.eval t .sub x 1

/-- Comparison operators. The comparisons in `/repo/vir/simd.h` 1393-1415, 1742-1764. -/
inductive CmpOp where
  | eq | ne | lt | le | gt | ge
deriving DecidableEq, Repr

/-- Comparison of two values of the same type. The comparisons in `/repo/vir/simd.h` 1393-1415, 1742-1764. -/
def CmpOp.eval : CmpOp → Int → Int → Bool
  | .eq, x, y => x == y
  | .ne, x, y => x != y
  | .lt, x, y => decide (x < y)
  | .le, x, y => decide (x ≤ y)
  | .gt, x, y => decide (x > y)
  | .ge, x, y => decide (x ≥ y)

end Vir
