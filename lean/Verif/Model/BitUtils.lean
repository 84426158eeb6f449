import Verif.Outcome

/-!
# `bit_ceil` and `bit_floor` of the library

Unsigned arithmetic of a `w`-bit type is arithmetic modulo `2^w`. Recursions and loops that do not end within the
given number of steps (`fuel`) are `ub diverge`; the theorems show that the fuel chosen is always enough, except
where the C++ code does not terminate either.
-/

namespace Vir.BitUtils

/-- `x - 1` in a `w`-bit unsigned type. Used in `/repo/vir/simd.h` 222-240, `/repo/vir/detail.h` 184-187. -/
def dec (w x : Nat) : Nat := (x + (2 ^ w - 1)) % 2 ^ w

/-- `vir::detail::bit_ceil(T x)` for a `w`-bit unsigned `T` (`/repo/vir/detail.h` 184-187). -/
def bitCeilRec (w : Nat) : Nat → Nat → Outcome Nat
  | 0, _ => .ub .diverge
  | fuel + 1, x =>
    if x &&& dec w x = 0 then .ok x
    else bitCeilRec w fuel (((x ||| (x >>> 1)) + 1) % 2 ^ w)

/-- `vir::detail::bit_ceil(T x)` (`/repo/vir/detail.h` 184-187). -/
def detailBitCeil (w x : Nat) : Outcome Nat := bitCeilRec w (x + 2) x

/-- The loop of `vir::stdx::detail::bit_ceil(size_t)` (`/repo/vir/simd.h` 225-228). -/
def bitCeilLoop (x : Nat) : Nat → Nat → Outcome Nat
  | 0, _ => .ub .diverge
  | fuel + 1, r => if r < x then bitCeilLoop x fuel (r <<< 1 % 2 ^ 64) else .ok r

/-- `vir::stdx::detail::bit_ceil(size_t x)` (`/repo/vir/simd.h` 222-229), observed for `fuel` iterations. -/
def simdBitCeil (fuel x : Nat) : Outcome Nat := bitCeilLoop x fuel 1

/-- The loop of `vir::stdx::detail::bit_floor(size_t)` (`/repo/vir/simd.h` 235-238), from the start of an iteration. -/
def bitFloorLoop : Nat → Nat → Outcome Nat
  | 0, _ => .ub .diverge
  | fuel + 1, x =>
    let r := x
    let x := x &&& dec 64 x
    if x ≠ 0 then bitFloorLoop fuel x else .ok r

/-- `vir::stdx::detail::bit_floor(size_t x)` (`/repo/vir/simd.h` 231-240). -/
def bitFloor (x : Nat) : Outcome Nat := bitFloorLoop (x + 1) x

end Vir.BitUtils
