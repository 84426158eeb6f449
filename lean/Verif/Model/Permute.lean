import Verif.Model.Simd
import Verif.Model.Bits

/-!
# Permutations (`/repo/vir/simd_permute.h`)

Template arguments, index functions and all index arithmetic are evaluated by the compiler: an overflow, a division by
zero or a failed `static_assert` makes the program ill-formed, which is `ub staticAssert` here.
-/

namespace Vir.Permute
open Vir.Simd

variable {α : Type}

/-- The value of an `int` constant expression. The `int` arithmetic of `/repo/vir/simd_permute.h` 129-165, 201-204, 318-329. -/
def cint (x : Int) : Outcome Int := if -2 ^ 31 ≤ x ∧ x < 2 ^ 31 then .ok x else .ub .staticAssert

/-- Conversion of a value to `unsigned`. The `unsigned` arithmetic of `/repo/vir/simd_permute.h` 66-101. -/
def toU32 (x : Int) : Nat := (x % 2 ^ 32).toNat

/-- Conversion of a value to `size_t`. The `std::size_t` arithmetic of `/repo/vir/simd_permute.h` 268. -/
def toU64 (x : Int) : Nat := (x % 2 ^ 64).toNat

/-- Conversion of an unsigned value to `int` (modulo `2^32`). The conversion to `int` in `/repo/vir/simd_permute.h` 252. -/
def toI32 (x : Nat) : Int := if x % 2 ^ 32 < 2 ^ 31 then ((x % 2 ^ 32 : Nat) : Int) else ((x % 2 ^ 32 : Nat) : Int) - 2 ^ 32

/-- An index permutation function, called with the index of the lane and the size of the input; its result is converted to
`int` (`/repo/vir/simd_permute.h` 217-222, 252-257, 287-292). -/
abbrev IdxFn := Nat → Nat → Outcome Int

/-- `simd_permute_zero` (`/repo/vir/simd_permute.h` 52). -/
def permuteZero : Int := 2 ^ 31 - 1

/-- `simd_permute_uninit` (`/repo/vir/simd_permute.h` 55). -/
def permuteUninit : Int := permuteZero - 1

/-! ## Predefined permutations -/

/-- `DuplicateEven` (`/repo/vir/simd_permute.h` 66-71). -/
def duplicateEven : IdxFn := fun i _ => .ok (toI32 (toU32 i &&& (2 ^ 32 - 2)))

/-- `DuplicateOdd` (`/repo/vir/simd_permute.h` 76-81). -/
def duplicateOdd : IdxFn := fun i _ => .ok (toI32 (toU32 i ||| 1))

/-- `SwapNeighbors<N>` (`/repo/vir/simd_permute.h` 86-101), all arithmetic in `unsigned` except `size % (2 * N)`. -/
def swapNeighbors (n : Nat) : IdxFn := fun i size =>
  let i := toU32 i
  let n2 := toU32 (2 * n)
  if n2 = 0 then .ub .staticAssert
  else if size % n2 ≠ 0 then .ub .staticAssert
  else if hasSingleBit n then .ok (toI32 (i ^^^ n))
  else if i % n2 ≥ n then .ok (toI32 (toU32 ((i : Int) - n)))
  else .ok (toI32 (toU32 ((i : Int) + n)))

/-- `Broadcast<Position>` (`/repo/vir/simd_permute.h` 111-117). -/
def broadcast (position : Int) : IdxFn := fun _ _ => .ok position

/-- `Reverse` (`/repo/vir/simd_permute.h` 129-134). -/
def reverse : IdxFn := fun i _ => cint (-1 - i)

/-- `Rotate<Offset>` (`/repo/vir/simd_permute.h` 139-148): `size.value` is a `size_t`, so the `int` sum is converted to
`size_t` before the remainder is taken. -/
def rotate (offset : Int) : IdxFn := fun i size => do
  let x ← cint (i + offset)
  if size = 0 then .ub .staticAssert
  else .ok (toI32 (toU64 x % size))

/-- `Shift<Offset>` (`/repo/vir/simd_permute.h` 154-166). -/
def shift (offset : Int) : IdxFn := fun i size => do
  let j ← cint (i + offset)
  if offset ≥ 0 then .ok (if j ≥ size then permuteZero else j)
  else .ok (if j < 0 then permuteZero else j)

/-! ## simd_permute -/

/-- One lane of the generic implementation (`/repo/vir/simd_permute.h` 251-275). `junk i` is the outcome of copying an
uninitialised object for lane `i`: undefined, or an arbitrary value. -/
def genericLane (zero : α) (junk : Nat → Outcome α) (f : IdxFn) (v : List α) (i : Nat) : Outcome α := do
  let j ← f i v.length
  if j = permuteZero then .ok zero
  else if j = permuteUninit then junk i
  else if j < 0 then
    if -j ≤ v.length then at' v (toU64 (v.length + j)) else .ub .staticAssert
  else if j < v.length then at' v (toU64 j) else .ub .staticAssert

/-- The generic implementation (`/repo/vir/simd_permute.h` 251-275) with result width `n`. -/
def generic (zero : α) (junk : Nat → Outcome α) (n : Nat) (f : IdxFn) (v : List α) : Outcome (List α) :=
  gen n (genericLane zero junk f v)

/-- `adj_idx` (`/repo/vir/simd_permute.h` 223-239) for an input of `size` lanes. -/
def adjIdx (size : Nat) (j : Int) : Outcome Int :=
  if j = permuteZero then .ok size
  else if j = permuteUninit then .ok (-1)
  else if j < 0 then if -j ≤ size then .ok (size + j) else .ub .staticAssert
  else if j < size then .ok j else .ub .staticAssert

/-- `__builtin_shufflevector(a, b, idx)`, one lane (documentation of GCC and Clang): lanes are numbered through both
vectors, `-1` allows any value. `__builtin_shufflevector` in `/repo/vir/simd_permute.h` 242-243. -/
def shuffleLane (junk : Outcome α) (a b : List α) (idx : Int) : Outcome α :=
  if idx = -1 then junk
  else if idx < 0 then .ub .staticAssert
  else match (a ++ b)[idx.toNat]? with
    | some x => .ok x
    | none => .ub .staticAssert

/-- The implementation with `__builtin_shufflevector` (`/repo/vir/simd_permute.h` 211-245). `pad` are the elements in the
padding of the object, as `VBuiltin` has `sizeof(V) / sizeof(T)` lanes. -/
def shuffled (zero : α) (junk : Nat → Outcome α) (pad : List α) (n : Nat) (f : IdxFn) (v : List α) : Outcome (List α) :=
  gen n fun i => do
    let j ← f i v.length
    shuffleLane (junk i) (v ++ pad) (List.replicate (v ++ pad).length zero) (← adjIdx v.length j)

/-- The control word of the AVX2 implementation (`/repo/vir/simd_permute.h` 201-204), in `int`: bit operations on the
two's complement representation; division and remainder truncate towards zero. -/
def avxControl (offset : Int) : Nat :=
  toU32 (offset.tdiv 2) ||| toU32 ((offset.tdiv 2 + 1).tmod 4 * 4) ||| toU32 ((offset.tdiv 2 + 2).tmod 4 * 16)
    ||| toU32 ((offset.tdiv 2 + 3).tmod 4 * 64)

/-- `vpermpd` / `__builtin_ia32_permdf256` on four pairs of floats; the control word has to be an 8-bit constant. Lane `2p` and
`2p+1` of the result are the pair selected by bits `2p` and `2p+1` of the control word. `__builtin_ia32_permdf256` in `/repo/vir/simd_permute.h` 205. -/
def permdf256 (v : List α) (control : Nat) : Outcome (List α) :=
  if control < 256 then
    gen 8 fun i => rd v (control / 4 ^ (i / 2) % 4 * 2 + i % 2)
  else .ub .staticAssert

/-- What decides at compile time which implementation is used. `/repo/vir/simd_permute.h` 185-214. -/
structure PEnv where
  /-- constant evaluation, or not GCC or Clang -/
  genericOnly : Bool
  /-- `__AVX2__` -/
  avx2 : Bool
  /-- `VIR_HAVE_WORKING_SHUFFLEVECTOR` -/
  shuffle : Bool
  /-- `std::same_as<T, float>` -/
  isFloat : Bool
  trivV : Bool
  trivR : Bool
  /-- `sizeof(T)` -/
  sizeT : Nat
  /-- `sizeof(R)` -/
  sizeR : Nat
  /-- `stdx::native_simd<T>::size()` -/
  native : Nat

/-- `simd_permute<n>(v, idx_perm)` (`/repo/vir/simd_permute.h` 177-276). `rot` is the member `Offset` if the index function
is a `Rotate`. `sizeof(V)` is the size of the lanes and of the padding elements `pad`. -/
def simdPermute (P : PEnv) (zero : α) (junk : Nat → Outcome α) (pad : List α) (n : Nat) (f : IdxFn) (rot : Option Int)
    (v : List α) : Outcome (List α) :=
  let n := if n = 0 then v.length else n
  let sizeV := (v ++ pad).length * P.sizeT
  if !P.genericOnly && hasSingleBit sizeV && decide (v.length ≤ P.native) then
    match rot with
    | some o =>
      if P.avx2 && P.isFloat && P.trivV && sizeV == 32 && o.tmod 2 == 0 then
        if P.sizeR = 32 then do
          let r ← permdf256 (v ++ pad) (avxControl o)
          .ok (r.take n)
        else .ub .staticAssert
      else if P.shuffle && hasSingleBit P.sizeR && P.trivV && P.trivR then
        if n * P.sizeT = P.sizeR then shuffled zero junk pad n f v else .ub .staticAssert
      else generic zero junk n f v
    | none =>
      if P.shuffle && hasSingleBit P.sizeR && P.trivV && P.trivR then
        if n * P.sizeT = P.sizeR then shuffled zero junk pad n f v else .ub .staticAssert
      else generic zero junk n f v
  else generic zero junk n f v

/-- `simd_permute<N>(T v, idx_perm)` for scalar inputs (`/repo/vir/simd_permute.h` 279-308). `P` describes the call with the
one-lane simd. -/
def simdPermuteScalar (P : PEnv) (zero : α) (junk : Nat → Outcome α) (n : Nat) (f : IdxFn) (rot : Option Int) (v : α) :
    Outcome (List α) :=
  if n ≤ 1 then do
    let j ← f 0 1
    if j = permuteZero then .ok [zero]
    else if j = permuteUninit then do .ok [← junk 0]
    else if j = 0 ∨ j = -1 then .ok [v]
    else .ub .staticAssert
  else simdPermute P zero junk [] n f rot [v]

/-- `simd_shift_in<Offset>(a, more...)` (`/repo/vir/simd_permute.h` 311-331). -/
def simdShiftIn (zero : α) (offset : Int) (a : List α) (more : List (List α)) : Outcome (List α) :=
  gen a.length fun i => do
    let ninputs : Int := 1 + more.length
    let w : Int := a.length
    let j ← cint (offset + i)
    if j ≥ (← cint (w * ninputs)) then .ok zero
    else if j ≥ 0 then do
      let x ← rd (a :: more) (j.tdiv w).toNat
      at' x (toU64 (j.tmod w))
    else if j < -w then .ok zero
    else at' a (toU64 (w + j))

end Vir.Permute
