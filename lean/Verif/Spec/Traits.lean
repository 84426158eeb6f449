import Verif.Model.Traits

/-!
# What the traits are meant to say
-/

namespace Vir.Spec

open Vir.Traits

/-- `t` is one of the element types of the Parallelism TS 2: a cv-unqualified arithmetic type other than `bool`. -/
def ElementTy (t : Ty) : Prop := ∃ a : Num, t = .num a

/-- `v` is a `simd` of `n` elements of type `t`. -/
def IsSimdOf (v t : Ty) (n : Nat) : Prop :=
  ElementTy t ∧ 1 ≤ n ∧ (v = .simd t .scalar ∧ n = 1 ∨ v = .simd t (.fixedSize n))

/-- `v` is a `simd_mask` of `n` elements for elements of type `t`. -/
def IsMaskOf (v t : Ty) (n : Nat) : Prop :=
  ElementTy t ∧ 1 ≤ n ∧ (v = .mask t .scalar ∧ n = 1 ∨ v = .mask t (.fixedSize n))

/-- `v` is a `simd` with an ABI tag of the library and an element type of the TS, and has at least one element. -/
def AnySimd (v : Ty) : Prop := ∃ t n, IsSimdOf v t n

/-- The same for masks. -/
def AnyMask (v : Ty) : Prop := ∃ t n, IsMaskOf v t n

/-- Nowhere in `v` is there a cv-qualified element type, or an ABI tag for less than one element. -/
def Plain : Ty → Prop
  | .simd t a | .mask t a => (∀ u, t ≠ .const u) ∧ ∀ n, a = .fixedSize n → 1 ≤ n
  | _ => True

/-- The number of bits `k` such that `n = 2 ^ k`. -/
def PowerOfTwo (n : Nat) : Prop := ∃ k, n = 2 ^ k

/-- The bytes of the vector registers of an instruction set for integers and for floating-point numbers: 128-bit registers, 256-bit registers with AVX,
for integers only with AVX2, 512-bit registers with AVX-512. -/
def registerBytes : Isa → (floating : Bool) → Nat
  | .avx512, _ => 64
  | .avx2, _ => 32
  | .avx, true => 32
  | .avx, false => 16
  | .base, _ => 16

end Vir.Spec
