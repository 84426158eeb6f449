import Verif.Model.Simd

/-!
# `simd_resize` and `simd_size_cast` (`/repo/vir/simd_resize.h`)

The element type `T` is abstract; `zero` is `T()`.
-/

namespace Vir.Simd

variable {α : Type}

/-- `simd_resize<N>(simd)` (`/repo/vir/simd_resize.h` 14-25). -/
def simdResize (zero : α) (n : Nat) (x : List α) : Outcome (List α) :=
  gen n fun i => if i < x.length then at' x i else .ok zero

/-- `simd_resize<N>(simd_mask)` (`/repo/vir/simd_resize.h` 27-38). -/
def maskResize (n : Nat) (x : List Bool) : Outcome (List Bool) :=
  gen n fun i => if i < x.length then at' x i else .ok false

/-- `simd_size_cast<V>(simd)` (`/repo/vir/simd_resize.h` 40-52): the missing lanes are `static_cast<T>(false)`; `conv`
is that conversion (the generator constructor converts, `/repo/vir/simd.h` 1555). -/
def simdSizeCast (conv : Bool → α) (n : Nat) (x : List α) : Outcome (List α) :=
  gen n fun i => if i < x.length then at' x i else .ok (conv false)

/-- `simd_size_cast<M>(simd_mask)` (`/repo/vir/simd_resize.h` 54-70, the branch without libstdc++'s simd). -/
def maskSizeCast (n : Nat) (x : List Bool) : Outcome (List Bool) :=
  gen n fun i => if i < x.length then at' x i else .ok false

end Vir.Simd
