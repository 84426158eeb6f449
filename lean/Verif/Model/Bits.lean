/-!
# Standard-library bit functions on unsigned values used by the algorithms
-/

namespace Vir

/-- `std::bit_ceil(unsigned)` (C++20 `<bit>`), used at `/repo/vir/simd_execution.h` 345, 694, 988: the
smallest power of two not less than `n`. Modelled on unbounded naturals (all arguments are simd widths). -/
def stdBitCeil (n : Nat) : Nat := if n ≤ 1 then 1 else 2 ^ (Nat.log2 (n - 1) + 1)

/-- `std::has_single_bit` (C++20 `<bit>`), used in `static_assert`s throughout `/repo/vir/simd_execution.h`. -/
def hasSingleBit (n : Nat) : Bool := n != 0 && (n &&& (n - 1)) == 0

/-- `std::bit_width(unsigned)` (C++20 `<bit>`), used at `/repo/vir/simd_execution.h` 1038. -/
def stdBitWidth (n : Nat) : Nat := if n = 0 then 0 else Nat.log2 n + 1

end Vir
