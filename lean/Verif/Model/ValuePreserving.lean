import Mathlib.Algebra.Order.Ring.Rat
import Verif.Model.CInt

/-!
# Which conversions are implicit (`/repo/vir/simd.h` 352-396)

The arithmetic types are `bool`, the integer types and the floating-point types. Different types with the same
representation (`long` and `long long`, say) are told apart by a tag; `int` and `unsigned` have tag 0. Floating-point
types are binary IEC 559 formats, given by `digits` and `max_exponent` of `std::numeric_limits`.
-/

namespace Vir.Convert

/-- A binary floating-point format: `std::numeric_limits<T>::digits` and `std::numeric_limits<T>::max_exponent`. The types of `/repo/vir/simd.h` 352-380. -/
structure FloatTy where
  digits : Nat
  emax : Nat
deriving DecidableEq, Repr

/-- `float`. The types of `/repo/vir/simd.h` 352-380. -/
def FloatTy.float : FloatTy := ⟨24, 128⟩
/-- `double`, one of the types of `/repo/vir/simd.h` 352-380. -/
def FloatTy.double : FloatTy := ⟨53, 1024⟩
/-- `long double` (x87), one of the types of `/repo/vir/simd.h` 352-380. -/
def FloatTy.longDouble : FloatTy := ⟨64, 16384⟩

/-- The largest finite value, `(1 - 2 ^ -digits) * 2 ^ emax`. Used in `/repo/vir/simd.h` 352-380. -/
def FloatTy.max (f : FloatTy) : ℚ := (2 ^ f.digits - 1) * 2 ^ (f.emax - f.digits)

/-- An arithmetic type. The types of `/repo/vir/simd.h` 352-396. -/
inductive ArithTy where
  | bool
  | int (t : IntTy) (tag : Nat)
  | float (f : FloatTy) (tag : Nat)
deriving DecidableEq, Repr

/-- `bool` counts as an unsigned integer type of one bit. The types of `/repo/vir/simd.h` 352-380. -/
def ArithTy.rep : ArithTy → IntTy ⊕ FloatTy
  | .bool => .inl ⟨1, false⟩
  | .int t _ => .inl t
  | .float f _ => .inr f

/-- `std::numeric_limits<T>::digits`. `/repo/vir/simd.h` 352-380. -/
def ArithTy.digits (a : ArithTy) : Nat :=
  match a.rep with
  | .inl t => if t.signed then t.bits - 1 else t.bits
  | .inr f => f.digits

/-- `std::numeric_limits<T>::max()`. `/repo/vir/simd.h` 352-380. -/
def ArithTy.max (a : ArithTy) : ℚ :=
  match a.rep with
  | .inl t => (t.max : ℚ)
  | .inr f => f.max

/-- `std::numeric_limits<T>::lowest()`. `/repo/vir/simd.h` 352-380. -/
def ArithTy.lowest (a : ArithTy) : ℚ :=
  match a.rep with
  | .inl t => (t.lowest : ℚ)
  | .inr f => -f.max

/-- `std::is_signed_v<T>`; `std::is_unsigned_v<T>` is its negation for arithmetic types. `/repo/vir/simd.h` 352-380, 386-396. -/
def ArithTy.isSigned (a : ArithTy) : Bool :=
  match a.rep with
  | .inl t => t.signed
  | .inr _ => true

/-- The common type of two integer operands: both are promoted, then the usual arithmetic conversions apply. `/repo/vir/simd.h` 352-380. -/
def commonInt (s t : IntTy) : IntTy :=
  let s := s.promote
  let t := t.promote
  if s.signed = t.signed then (if s.bits ≤ t.bits then t else s)
  else if s.signed then (if s.bits ≤ t.bits then t else s)
  else (if t.bits ≤ s.bits then s else t)

/-- `x <= y` for `x` of type `a` and `y` of type `b`, after the usual arithmetic conversions. `rnd` is the conversion of an
integer to a floating-point type, whatever the rounding mode. Two floating-point values are compared exactly, as the
conversion to the one with greater rank is. `/repo/vir/simd.h` 352-380. -/
def leUsual (rnd : FloatTy → ℚ → ℚ) (a b : ArithTy) (x y : ℚ) : Bool :=
  match a.rep, b.rep with
  | .inl s, .inl t => decide ((commonInt s t).conv x.num ≤ (commonInt s t).conv y.num)
  | .inl _, .inr g => decide (rnd g x ≤ y)
  | .inr f, .inl _ => decide (x ≤ rnd f y)
  | .inr _, .inr _ => decide (x ≤ y)

/-- `is_value_preserving<From, To>` for arithmetic types (`/repo/vir/simd.h` 352-376). -/
def valuePreserving (rnd : FloatTy → ℚ → ℚ) (src dst : ArithTy) : Bool :=
  if dst = .bool then decide (src = .bool)
  else if src = dst then true
  else decide (src.digits ≤ dst.digits) && leUsual rnd src dst src.max dst.max
    && leUsual rnd dst src dst.lowest src.lowest && !(src.isSigned && !dst.isSigned)

/-- `int`. `/repo/vir/simd.h` 386-396. -/
def ArithTy.cint : ArithTy := .int .i32 0
/-- `unsigned int`, `/repo/vir/simd.h` 386-396. -/
def ArithTy.cuint : ArithTy := .int .u32 0

/-- `ValuePreservingOrInt<From, To>` for arithmetic types (`/repo/vir/simd.h` 386-396), the condition of the broadcast
and generator constructors (`/repo/vir/simd.h` 1263-1276, 1574-1579, 1594-1599). Arithmetic types are always convertible. -/
def acceptsBroadcast (rnd : FloatTy → ℚ → ℚ) (src dst : ArithTy) : Bool :=
  decide (src = dst) || decide (src = .cint) || (decide (src = .cuint) && !dst.isSigned) || valuePreserving rnd src dst

/-- The condition of the implicit conversion between vectors of the same width (`/repo/vir/simd.h` 1582-1588);
`higherRank` is `is_higher_integer_rank<To, From>` (326-350). -/
def acceptsConversion (rnd : FloatTy → ℚ → ℚ) (higherRank : ArithTy → ArithTy → Bool) (src dst : ArithTy) : Bool :=
  valuePreserving rnd src dst && higherRank dst src

end Vir.Convert
