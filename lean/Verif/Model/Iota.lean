import Verif.Model.Simd

/-!
# `iota_v` (`/repo/vir/simd_iota.h`)

`conv` is the conversion of an integer to the element type.
-/

namespace Vir.Simd

variable {α : Type}

/-- `iota_v<T>` for arithmetic `T` (`/repo/vir/simd_iota.h` 32-35); `zero` is `T()`. -/
def iotaScalar (zero : α) : α := zero

/-- `iota_v<simd>` (`/repo/vir/simd_iota.h` 37-39): the lane number is passed as an `int` (32 bits). -/
def iotaSimd (conv : Int → α) (n : Nat) : Outcome (List α) :=
  gen n fun i => .ok (conv ((i : Int).bmod (2 ^ 32)))

/-- `iota_v<std::array<T, N>>` (`/repo/vir/simd_iota.h` 41-45). -/
def iotaArray (conv : Int → α) (n : Nat) : List α := (List.range n).map fun i : Nat => conv (i : Int)

/-- `iota_v<T[N]>` (`/repo/vir/simd_iota.h` 47-49 with 20-25). -/
def iotaCArray (conv : Int → α) (n : Nat) : List α := (List.range n).map fun i : Nat => conv (i : Int)

end Vir.Simd
