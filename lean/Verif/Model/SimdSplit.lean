import Verif.Model.Simd

/-!
# `split` and `concat` of the fallback `simd` (`/repo/vir/simd.h` 1844-1945)

The simd and simd_mask overloads have the same bodies; lanes are of any type here.
-/

namespace Vir.Simd

variable {α : Type}

/-- `detail::pack_simd_subscript<I>(xs...)` (`/repo/vir/simd.h` 278-286). Without arguments there is no viable overload. -/
def packSubscript : Nat → List (List α) → Outcome α
  | _, [] => .ub .staticAssert
  | i, x0 :: xs => if i ≥ x0.length then packSubscript (i - x0.length) xs else at' x0 i

/-- `concat(simd...)` and `concat(simd_mask...)` (`/repo/vir/simd.h` 1897-1919). -/
def concat (xs : List (List α)) : Outcome (List α) :=
  gen (xs.map List.length).sum fun i => packSubscript i xs

/-- Array subscript of a `std::array`. `/repo/vir/simd.h` 1844-1945. -/
def arr {β : Type} (x : List β) (i : Nat) : Outcome β :=
  match x[i]? with
  | some y => .ok y
  | none => .ub .oob

/-- `concat(array<simd, N>)` and `concat(array<simd_mask, N>)` with elements of `k` lanes
(`/repo/vir/simd.h` 1921-1945). -/
def concatArray (k : Nat) (x : List (List α)) : Outcome (List α) :=
  gen (x.length * k) fun i => do at' (← arr x (i / k)) (i % k)

/-- The sum `(sizes[Js] + ... + 0)` over `Js < n` (`/repo/vir/simd.h` 1880-1883): a right fold. -/
def offset (sizes : List Nat) (n : Nat) : Nat := (sizes.take n).foldr (· + ·) 0

/-- `split<Sizes...>(x)` (`/repo/vir/simd.h` 1870-1888); `x.size() == (Sizes + ...)` is part of the signature. -/
def splitSizes (sizes : List Nat) (x : List α) : Outcome (List (List α)) :=
  if x.length = sizes.sum then
    gen sizes.length fun i => load (sizes.getD i 0) x (offset sizes i)
  else .ub .staticAssert

/-- `split<V>(x)` into `parts = N / V::size()` objects of `w` lanes (`/repo/vir/simd.h` 1844-1868); `N == parts * w` is
part of the signature. -/
def splitParts (w : Nat) (x : List α) : Outcome (List (List α)) :=
  if x.length = x.length / w * w then
    gen (x.length / w) fun i => load w x (i * w)
  else .ub .staticAssert

/-- `split<V>(V)` (`/repo/vir/simd.h` 1890-1895). -/
def splitOne (x : List α) : Outcome (List (List α)) := .ok [x]

end Vir.Simd
