import Verif.Model.Simd

/-!
# `bit_cast`, `simd_bit_cast` and bit operations on floating-point simd

(`/repo/vir/detail.h` 236-255, `/repo/vir/simd_bit.h`, `/repo/vir/simd_float_ops.h`)

A lane of a type of `w` bytes is its bit pattern, a natural number below `256 ^ w`. The object representation of a simd
is the concatenation of its lanes, each in little-endian byte order; objects have no padding (`T data[N]`,
`/repo/vir/simd.h` 1541).
-/

namespace Vir.BitCast
open Simd

/-- Object representation of one lane of `w` bytes. `bit_cast`, `/repo/vir/detail.h` 236-255. -/
def laneBytes : Nat → Nat → List Nat
  | 0, _ => []
  | w + 1, x => x % 256 :: laneBytes w (x / 256)

/-- The lane stored in the given bytes. `bit_cast`, `/repo/vir/detail.h` 236-255. -/
def laneOfBytes : List Nat → Nat
  | [] => 0
  | b :: bs => b + 256 * laneOfBytes bs

/-- Object representation of a simd with lanes of `w` bytes. `bit_cast`, `/repo/vir/detail.h` 236-255. -/
def objBytes (w : Nat) (v : List Nat) : List Nat := v.flatMap (laneBytes w)

/-- The `n` lanes of `w` bytes stored in the given bytes. `bit_cast`, `/repo/vir/detail.h` 236-255. -/
def objOfBytes (w : Nat) : Nat → List Nat → List Nat
  | 0, _ => []
  | n + 1, bs => laneOfBytes (bs.take w) :: objOfBytes w n (bs.drop w)

/-- `detail::bit_cast<To>(x)` (`/repo/vir/detail.h` 236-255) from lanes of `w` bytes to `n'` lanes of `w'` bytes; all
three branches copy the object representation. Also `simd_bit_cast` (`/repo/vir/simd_bit.h` 15-28), whose constraint is
the same equality of sizes. -/
def bitCast (w w' n' : Nat) (v : List Nat) : Outcome (List Nat) :=
  if w' * n' = w * v.length then .ok (objOfBytes w' n' (objBytes w v)) else .ub .staticAssert

/-- Lanewise binary operation on the unsigned simd (`/repo/vir/simd.h` 1489-1499). -/
def lanewise (op : Nat → Nat → Nat) (x y : List Nat) : Outcome (List Nat) :=
  gen x.length fun i => do
    let a ← at' x i
    let b ← at' y i
    .ok (op a b)

/-- `operator&`, `operator|` and `operator^` on floating-point simd with `sizeof(T) = w` (`/repo/vir/simd_float_ops.h`
16-32, 34-50, 52-68): `op` is the operation on unsigned integers. For `w ≤ 8` the whole objects are cast, otherwise each
lane is. -/
def floatOp (op : Nat → Nat → Nat) (w : Nat) (a b : List Nat) : Outcome (List Nat) :=
  if w ≤ 8 then do
    let ia ← bitCast w w a.length a
    let ib ← bitCast w w b.length b
    let ir ← lanewise op ia ib
    bitCast w w ir.length ir
  else
    gen a.length fun i => do
      let ia ← bitCast w w 1 [← at' a i]
      let ib ← bitCast w w 1 [← at' b i]
      let ir ← lanewise op ia ib
      let r ← bitCast w w 1 ir
      at' r 0

/-- `operator&` (`/repo/vir/simd_float_ops.h` 16-32). -/
def floatAnd (w : Nat) (a b : List Nat) : Outcome (List Nat) := floatOp (· &&& ·) w a b

/-- `operator|` (`/repo/vir/simd_float_ops.h` 34-50). -/
def floatOr (w : Nat) (a b : List Nat) : Outcome (List Nat) := floatOp (· ||| ·) w a b

/-- `operator^` (`/repo/vir/simd_float_ops.h` 52-68). -/
def floatXor (w : Nat) (a b : List Nat) : Outcome (List Nat) := floatOp (· ^^^ ·) w a b

end Vir.BitCast
