import Verif.Model.Simd

/-!
# Conversions between masks and `std::bitset` (`/repo/vir/simd_bitset.h`)

A `std::bitset<N>` is modelled by the natural number whose binary digits are its bits (`to_ullong`, without the limit
to 64 bits). The branches using libstdc++'s own simd are not modelled.
-/

namespace Vir.Simd

/-- `bits[i] = x` on a `std::bitset` (used at `/repo/vir/simd_bitset.h` 29). -/
def setBit (b i : Nat) (x : Bool) : Nat := if x then b ||| 2 ^ i else b ^^^ (b &&& 2 ^ i)

/-- `to_bitset` (`/repo/vir/simd_bitset.h` 15-33). For a mask of size one the result is `std::bitset<1>(k[0])`, which
keeps the lowest bit of its argument. -/
def toBitset (k : List Bool) : Outcome Nat :=
  if k.length = 1 then do
    let x ← at' k 0
    .ok (x.toNat % 2 ^ 1)
  else
    forUp (fun i bits => do .ok (setBit bits i (← at' k i))) k.length 0 0

/-- `to_simd_mask<M>` (`/repo/vir/simd_bitset.h` 35-47), `n = M::size()`. For size one the mask is built with the
broadcast constructor (`/repo/vir/simd.h` 645-648, 791-795). The overloads 49-59 forward to this one. -/
def toSimdMask (n : Nat) (bits : Nat) : Outcome (List Bool) :=
  if n = 1 then gen n fun _ => .ok (bits.testBit 0) else gen n fun i => .ok (bits.testBit i)

end Vir.Simd
