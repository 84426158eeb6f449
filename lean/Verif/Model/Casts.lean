import Verif.Model.Traits
import Verif.Model.SimdOps
import Verif.Model.ValuePreserving

/-!
# Integer types by size, conversion rank, casts between simd types and `cvt`

`/repo/vir/detail.h` 78-162, `/repo/vir/simd.h` 326-350, 1582-1590, 1767-1799, `/repo/vir/simd_cvt.h`.
-/

namespace Vir.Casts

/-- The integer types of C++ that the library names. `/repo/vir/detail.h` 78-162. -/
inductive IntName where
  | char | schar | uchar | short | ushort | int | uint | long | ulong | llong | ullong | int128 | uint128
deriving DecidableEq, Repr

/-- What differs between the platforms: whether `long` has 8 bytes (or 4), whether `char` is signed, whether there is `__int128`. The platform of `/repo/vir/detail.h` 78-162. -/
structure DataModel where
  long8 : Bool
  charSigned : Bool
  has128 : Bool
deriving DecidableEq, Repr

/-- `sizeof`. `/repo/vir/detail.h` 78-162. -/
def DataModel.size (dm : DataModel) : IntName → Nat
  | .char | .schar | .uchar => 1
  | .short | .ushort => 2
  | .int | .uint => 4
  | .long | .ulong => if dm.long8 then 8 else 4
  | .llong | .ullong => 8
  | .int128 | .uint128 => 16

/-- `std::is_signed_v`. `/repo/vir/detail.h` 78-162. -/
def DataModel.signed (dm : DataModel) : IntName → Bool
  | .char => dm.charSigned
  | .schar | .short | .int | .long | .llong | .int128 => true
  | .uchar | .ushort | .uint | .ulong | .ullong | .uint128 => false

/-- `meta::as_int<T, U>` (`/repo/vir/detail.h` 78-119), starting with the candidate `u`; the argument is `sizeof(T)`. Candidates without
a specialization end the search without a type. `fuel` bounds the number of candidates. -/
def asIntFrom (dm : DataModel) (s : Nat) : Nat → IntName → Option IntName
  | 0, _ => none
  | fuel + 1, u =>
    if s = dm.size u then some u
    else match u with
      | .llong => asIntFrom dm s fuel .long
      | .long => asIntFrom dm s fuel .int
      | .int => asIntFrom dm s fuel .short
      | .short => asIntFrom dm s fuel .schar
      | .schar => if dm.has128 then asIntFrom dm s fuel .int128 else none
      | _ => none

/-- `meta::as_int_t<T>` (`/repo/vir/detail.h` 78, 118-119). -/
def asInt (dm : DataModel) (s : Nat) : Option IntName := asIntFrom dm s 6 .llong

/-- `meta::as_unsigned<T, U>` (`/repo/vir/detail.h` 121-159). -/
def asUnsignedFrom (dm : DataModel) (s : Nat) : Nat → IntName → Option IntName
  | 0, _ => none
  | fuel + 1, u =>
    if s = dm.size u then some u
    else match u with
      | .ullong => asUnsignedFrom dm s fuel .ulong
      | .ulong => asUnsignedFrom dm s fuel .uint
      | .uint => asUnsignedFrom dm s fuel .ushort
      | .ushort => asUnsignedFrom dm s fuel .uchar
      | .uchar => if dm.has128 then asUnsignedFrom dm s fuel .uint128 else none
      | _ => none

/-- `meta::as_unsigned_t<T>` (`/repo/vir/detail.h` 121, 161-162). -/
def asUnsigned (dm : DataModel) (s : Nat) : Option IntName := asUnsignedFrom dm s 6 .ullong

/-- The integer conversion rank of the C++ standard. `/repo/vir/simd.h` 326-350. -/
def rank : IntName → Nat
  | .char | .schar | .uchar => 1
  | .short | .ushort => 2
  | .int | .uint => 3
  | .long | .ulong => 4
  | .llong | .ullong => 5
  | .int128 | .uint128 => 6

/-- The unsigned type that corresponds to a signed type. Used in `/repo/vir/simd.h` 326-350. -/
def toUnsigned : IntName → IntName
  | .char | .schar => .uchar
  | .short => .ushort
  | .int => .uint
  | .long => .ulong
  | .llong => .ullong
  | .int128 => .uint128
  | t => t

/-- Integer promotion: the types with a rank below that of `int` are smaller than `int` here. Used in `/repo/vir/simd.h` 352-380. -/
def promoted (t : IntName) : IntName := if rank t < rank .int then .int else t

/-- `decltype(std::declval<T>() + std::declval<U>())`: the usual arithmetic conversions. `/repo/vir/simd.h` 326-350. -/
def sumType (dm : DataModel) (t u : IntName) : IntName :=
  let a := promoted t
  let b := promoted u
  if dm.signed a = dm.signed b then (if rank a < rank b then b else a)
  else
    let (s, u) := if dm.signed a then (a, b) else (b, a)
    if rank s ≤ rank u then u else if dm.size u < dm.size s then s else toUnsigned s

/-- `detail::is_higher_integer_rank<T, U>` (`/repo/vir/simd.h` 326-350). -/
def higherRank (dm : DataModel) (t u : IntName) : Bool :=
  if dm.size u < dm.size t then true
  else if dm.size t = dm.size u then (if t = u then true else decide (sumType dm t u = t))
  else false

/-- The width and signedness of a type. The types of `/repo/vir/detail.h` 78-162. -/
def intTy (dm : DataModel) (t : IntName) : IntTy := ⟨8 * dm.size t, dm.signed t⟩

/-- The type for the model of `is_value_preserving` (`Model/ValuePreserving`); the tag tells types apart. The types of `/repo/vir/detail.h` 78-162. -/
def arith (dm : DataModel) (t : IntName) : Convert.ArithTy :=
  .int (intTy dm t) (match t with
    | .int | .uint => 0
    | .char => 1 | .schar => 2 | .uchar => 3 | .short => 4 | .ushort => 5 | .long => 6 | .ulong => 7 | .llong => 8
    | .ullong => 9 | .int128 => 10 | .uint128 => 11)

/-- Whether `simd<U, fixed_size<N>>` converts to `simd<T, fixed_size<N>>` implicitly (`/repo/vir/simd.h` 1582-1590). -/
def convertible (dm : DataModel) (rnd : Convert.FloatTy → ℚ → ℚ) (u t : IntName) : Bool :=
  Convert.valuePreserving rnd (arith dm u) (arith dm t) && higherRank dm t u

open Vir.Traits

/-- The type of `static_simd_cast<target>(x)` for `x` of type `src`, if there is a viable overload (`/repo/vir/simd.h` 1767-1791). The last
overload only looks at `M::size()`; the function template then needs a constructor of `M` from a function that returns `bool`,
which masks and simds have. -/
def staticCastType (target src : Ty) : Option Ty :=
  match src with
  | .simd _ a =>
    if isVectorizable target then some (.simd target a)
    else if isSimd target then some target
    else none
  | .mask u a =>
    if isVectorizable target then some (.mask target a)
    else if (sizeMember target).isSome && sizeMember target == simdSize u a then some target
    else none
  | _ => none

/-- `static_simd_cast` of a mask (`/repo/vir/simd.h` 1781-1791) to an object of `n` lanes. -/
def maskCast (n : Nat) (x : List Bool) : Outcome (List Bool) := Simd.gen n fun i => Simd.at' x i

/-- `static_simd_cast<V>` of a mask to a simd of `n` lanes (`/repo/vir/simd.h` 1787-1791): the generator constructor of the simd converts `bool` to
the element type; `conv` is that conversion. -/
def maskToSimd {β : Type} (n : Nat) (conv : Bool → β) (x : List Bool) : Outcome (List β) :=
  Simd.gen n fun i => do .ok (conv (← Simd.at' x i))

/-- The type of `simd_cast<target>(x)` (`/repo/vir/simd.h` 1794-1799); `vp` is `is_value_preserving`. -/
def simdCastType (vp : Ty → Ty → Bool) (target src : Ty) : Option Ty :=
  match src with
  | .simd u a => if vp u ((valueType target).getD target) then staticCastType target (.simd u a) else none
  | _ => none

/-- Whether `src` converts to `dst` implicitly (`std::convertible_to`), for simds and masks: the same type, or `fixed_size` simds with
a value-preserving conversion (`conv`, `/repo/vir/simd.h` 1582-1590), or `fixed_size` masks of the same size (805-810). -/
def implicit (conv : Ty → Ty → Bool) (src dst : Ty) : Bool :=
  if src = dst then true
  else match src, dst with
    | .simd u (.fixedSize n), .simd t (.fixedSize m) => decide (n = m) && conv u t
    | .mask u (.fixedSize n), .mask t (.fixedSize m) => decide (n = m) && isVectorizable u && isVectorizable t
    | _, _ => false

/-- The implicit conversions of `fixed_size` objects of `n` lanes (`/repo/vir/simd.h` 805-810, 1582-1590): lane by lane with `f`. -/
def convertLanes {α β : Type} (n : Nat) (f : α → β) (x : List α) : Outcome (List β) :=
  Simd.gen n fun i => do .ok (f (← Simd.at' x i))

/-- Which of the ways `cvt<T>::operator U()` takes (`/repo/vir/simd_cvt.h` 28-40), if it exists: `true` for the implicit
conversion, `false` for `static_simd_cast`. -/
def cvtWay (conv : Ty → Ty → Bool) (src dst : Ty) : Option Bool :=
  if implicit conv src dst then some true
  else if staticCastType dst src = some dst then some false
  else none

end Vir.Casts
