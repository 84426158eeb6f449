import Verif.Model.CInt

/-!
# Types, type traits and concepts of the fallback implementation

`/repo/vir/simd.h` 288-297, 414-621 and `/repo/vir/simd_concepts.h`. Types are terms; a trait is a function on types. `none` stands for
"there is no such member" (an incomplete class or no viable specialization, a substitution failure where the trait is used in
a template).
-/

namespace Vir.Traits

/-- An arithmetic type other than `bool`, with what the traits use of it. Types with different `id` are different types. The types in `/repo/vir/simd.h` 288-621. -/
structure Num where
  id : Nat
  size : Nat
  align : Nat
  floating : Bool
deriving DecidableEq, Repr

/-- The types that matter to the traits. `const t` also stands for other cv-qualifications. `other` are types that are none of
these. The types in `/repo/vir/simd.h` 288-621. -/
inductive Ty where
  | num (a : Num)
  | bool
  | const (t : Ty)
  | scalar
  | fixedSize (n : Int)
  | simd (t a : Ty)
  | mask (t a : Ty)
  | elementAligned
  | vectorAligned
  | overaligned (n : Nat)
  | other (k : Nat)
deriving DecidableEq, Repr

/-- `std::is_arithmetic_v`: of cv-qualified types too. Used in `/repo/vir/simd.h` 289. -/
def isArithmetic : Ty → Bool
  | .num _ | .bool => true
  | .const t => isArithmetic t
  | _ => false

/-- `sizeof` of arithmetic types. Used in `/repo/vir/simd.h` 426-447, 576-581. -/
def sizeOf : Ty → Option Nat
  | .num a => some a.size
  | .bool => some 1
  | .const t => sizeOf t
  | _ => none

/-- `alignof` of arithmetic types. Used in `/repo/vir/simd.h` 426-447, 576-581. -/
def alignOf : Ty → Option Nat
  | .num a => some a.align
  | .bool => some 1
  | .const t => alignOf t
  | _ => none

/-- `std::is_floating_point_v`. Used in `/repo/vir/simd.h` 436. -/
def isFloating : Ty → Bool
  | .num a => a.floating
  | .const t => isFloating t
  | _ => false

/-- `detail::is_vectorizable` (`/repo/vir/simd.h` 288-297): the specialization is for `bool` only. -/
def isVectorizable (t : Ty) : Bool := if t = .bool then false else isArithmetic t

/-- `detail::is_possible_loadstore_conversion` (`/repo/vir/simd.h` 398-405): which pointers `copy_from` and `copy_to` accept. -/
def isLoadStore (ptr value : Ty) : Bool :=
  if ptr = .bool ∧ value = .bool then true else isVectorizable ptr && isVectorizable value

/-- `is_abi_tag` (`/repo/vir/simd.h` 506-519). -/
def isAbiTag : Ty → Bool
  | .scalar => true
  | .fixedSize _ => true
  | _ => false

/-- `is_simd` (`/repo/vir/simd.h` 521-531). -/
def isSimd : Ty → Bool
  | .simd t a => isVectorizable t && isAbiTag a
  | _ => false

/-- `is_simd_mask` (`/repo/vir/simd.h` 533-543). -/
def isSimdMask : Ty → Bool
  | .mask t a => isVectorizable t && isAbiTag a
  | _ => false

/-- `is_simd_flag_type` (`/repo/vir/simd.h` 545-550): there are no specializations. -/
def isSimdFlagType : Ty → Bool := fun _ => false

/-- `simd_size` (`/repo/vir/simd.h` 552-566): `integral_constant<size_t, N>` is ill-formed for negative `N`. -/
def simdSize (t : Ty) : Ty → Option Nat
  | .scalar => if isVectorizable t then some 1 else none
  | .fixedSize n => if isVectorizable t && decide (0 ≤ n) then some n.toNat else none
  | _ => none

/-- `memory_alignment` (`/repo/vir/simd.h` 568-582); the second argument defaults to the `value_type`. -/
def memoryAlignment : Ty → Ty → Option Nat
  | .simd _ _, u => if isVectorizable u then alignOf u else none
  | .mask _ _, .bool => alignOf .bool
  | _, _ => none

/-- `rebind_simd_t` (`/repo/vir/simd.h` 584-598). -/
def rebindSimd (t : Ty) (v : Ty) : Option Ty :=
  if isVectorizable t && (isSimd v || isSimdMask v) then
    match v with
    | .simd _ a => some (.simd t a)
    | .mask _ a => some (.mask t a)
    | _ => none
  else none

/-- `std::conditional_t<N == 1, scalar, fixed_size<N>>`. The ABI tags of `/repo/vir/simd.h` 414-454. -/
def abiFor (n : Int) : Ty := if n = 1 then .scalar else .fixedSize n

/-- `resize_simd_t` (`/repo/vir/simd.h` 601-621). -/
def resizeSimd (n : Int) (v : Ty) : Option Ty :=
  if decide (0 < n) && (isSimd v || isSimdMask v) then
    match v with
    | .simd t _ => some (.simd t (abiFor n))
    | .mask t _ => some (.mask t (abiFor n))
    | _ => none
  else none

/-- `int(N)` for `N` of type `size_t`: modulo 2^32. `int(N)` in `/repo/vir/simd.h` 451. -/
def toInt (n : Nat) : Int := IntTy.i32.conv n

/-- `simd_abi::deduce_t<T, N>` (`/repo/vir/simd.h` 449-454). -/
def deduce (n : Nat) : Ty := if n = 1 then .scalar else .fixedSize (toInt n)

/-- The instruction set the compiler targets, as far as `native` looks at it. `/repo/vir/simd.h` 426-442. -/
inductive Isa where
  | avx512 | avx2 | avx | base
deriving DecidableEq, Repr

/-- The vector width in bytes (`/repo/vir/simd.h` 431-439). -/
def Isa.bytes (isa : Isa) (t : Ty) : Nat :=
  match isa with
  | .avx512 => 64
  | .avx2 => 32
  | .avx => if isFloating t then 32 else 16
  | .base => 16

/-- `simd_abi::native` (`/repo/vir/simd.h` 426-442). -/
def native (isa : Isa) (t : Ty) : Option Ty := do
  let s ← sizeOf t
  if s > 8 then some .scalar else some (.fixedSize ((isa.bytes t / s : Nat) : Int))

/-- `simd_abi::compatible` (`/repo/vir/simd.h` 444-447). -/
def compatible (t : Ty) : Option Ty := do
  let s ← sizeOf t
  if s > 8 then some .scalar else some (.fixedSize ((16 / s : Nat) : Int))

/-- The member type `value_type`, where there is one: `/repo/vir/simd.h` 624-631 and 758-777 (masks, for vectorizable element types
only), 1231-1248 and 1523-1559 (simds). `T data[N]` makes the class an error for negative `N`, even when it is only asked for
a member; here that is `none`, too. `N = 0` is an extension of GCC and Clang. -/
def valueType : Ty → Option Ty
  | .simd t .scalar => some t
  | .simd t (.fixedSize n) => if 0 ≤ n then some t else none
  | .mask t .scalar => if isVectorizable t then some .bool else none
  | .mask t (.fixedSize n) => if isVectorizable t && decide (0 ≤ n) then some .bool else none
  | _ => none

/-- `abi_type` (`/repo/vir/simd.h` 633, 779, 1250, 1561). -/
def abiType : Ty → Option Ty
  | .simd t a => (valueType (.simd t a)).map fun _ => a
  | .mask t a => (valueType (.mask t a)).map fun _ => a
  | _ => none

/-- `mask_type` of a `simd` (`/repo/vir/simd.h` 1251, 1562). -/
def maskType : Ty → Option Ty
  | .simd t a => (valueType (.simd t a)).map fun _ => .mask t a
  | _ => none

/-- `simd_type` of a `simd_mask` (`/repo/vir/simd.h` 634, 780). -/
def simdType : Ty → Option Ty
  | .mask t a => (valueType (.mask t a)).map fun _ => .simd t a
  | _ => none

/-- `V::size()` (`/repo/vir/simd.h` 636-637, 782-783, 1253-1254, 1564-1565). -/
def sizeMember : Ty → Option Nat
  | .simd t .scalar => (valueType (.simd t .scalar)).map fun _ => 1
  | .mask t .scalar => (valueType (.mask t .scalar)).map fun _ => 1
  | .simd t (.fixedSize n) => (valueType (.simd t (.fixedSize n))).map fun _ => n.toNat
  | .mask t (.fixedSize n) => (valueType (.mask t (.fixedSize n))).map fun _ => n.toNat
  | _ => none

/-! ### Concepts (`/repo/vir/simd_concepts.h`): a missing member type means that the concept is not satisfied. -/

/-- `arithmetic`, `vectorizable` (`/repo/vir/simd_concepts.h` 25-37). -/
def cVectorizable (t : Ty) : Bool := isArithmetic t && !(t == .bool)

/-- `any_simd` (`/repo/vir/simd_concepts.h` 39-49). -/
def anySimd (v : Ty) : Bool :=
  isSimd v && (valueType v).any cVectorizable && (abiType v).any isAbiTag

/-- `any_simd_mask` (`/repo/vir/simd_concepts.h` 51-57). -/
def anySimdMask (v : Ty) : Bool :=
  isSimdMask v && (simdType v).any anySimd && (abiType v).any isAbiTag

/-- `any_simd_or_mask` (`/repo/vir/simd_concepts.h` 59-61). -/
def anySimdOrMask (v : Ty) : Bool := anySimd v || anySimdMask v

/-- `typed_simd` (`/repo/vir/simd_concepts.h` 63-65). -/
def typedSimd (v t : Ty) : Bool := anySimd v && valueType v == some t

/-- `sized_simd` (`/repo/vir/simd_concepts.h` 67-69). -/
def sizedSimd (v : Ty) (w : Nat) : Bool := anySimd v && sizeMember v == some w

/-- `sized_simd_mask` (`/repo/vir/simd_concepts.h` 71-73). -/
def sizedSimdMask (v : Ty) (w : Nat) : Bool := anySimdMask v && sizeMember v == some w

end Vir.Traits
