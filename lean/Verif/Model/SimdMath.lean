import Verif.Model.SimdOps

/-!
# Floating-point operators and math functions of the fallback simd (`/repo/vir/simd.h` 1113-1416, 1643-1764, 2430-2601)

The element operations are parameters: `f a s` is the result of the C++ function for an element, `s` the state it may read
and change besides (rounding mode, exception flags, `errno`). So the order in which the lanes are computed is part of the
model. The classes for the scalar ABI do the same with one lane.
-/

namespace Vir.Simd

variable {α β γ δ S : Type}

/-- The generator constructors (`/repo/vir/simd.h` 774-778, 1552-1556) with a generator that has side effects: the elements
of the initializer list are evaluated from left to right. -/
def genSFrom (f : Nat → S → Outcome (α × S)) : Nat → Nat → S → Outcome (List α × S)
  | 0, _, s => .ok ([], s)
  | c + 1, i, s => do
    let (x, s) ← f i s
    let (xs, s) ← genSFrom f c (i + 1) s
    .ok (x :: xs, s)

/-- Generator constructor of an `n`-lane object, with side effects. `/repo/vir/simd.h` 1552-1556, 1593-1599. -/
def genS (n : Nat) (f : Nat → S → Outcome (α × S)) (s : S) : Outcome (List α × S) := genSFrom f n 0 s

/-- `SIMD_MATH_1ARG(name, simd)`, `SIMD_MATH_1ARG(name, simd_mask)` and `SIMD_MATH_1ARG_FIXED` (`/repo/vir/simd.h` 2431-2441)
and unary minus (1687-1689). -/
def math1 (f : α → S → β × S) (x : List α) (s : S) : Outcome (List β × S) :=
  genS x.length (fun i s => do
    let a ← at' x i
    .ok (f a s)) s

/-- `SIMD_MATH_2ARG` (`/repo/vir/simd.h` 2443-2459), `scalbln`, `scalbn`, `ldexp` (2542-2558), the binary operators
`+ - * /` (1724-1739) and the comparisons (1741-1764). -/
def math2 (f : α → β → S → γ × S) (x : List α) (y : List β) (s : S) : Outcome (List γ × S) :=
  genS x.length (fun i s => do
    let a ← at' x i
    let b ← at' y i
    .ok (f a b s)) s

/-- `SIMD_MATH_3ARG` (`/repo/vir/simd.h` 2461-2487). -/
def math3 (f : α → β → γ → S → δ × S) (x : List α) (y : List β) (z : List γ) (s : S) : Outcome (List δ × S) :=
  genS x.length (fun i s => do
    let a ← at' x i
    let b ← at' y i
    let c ← at' z i
    .ok (f a b c s)) s

/-- `&(*p)[i] = v`: the subscript of a non-const object (`/repo/vir/simd.h` 1626-1633), then a store through the pointer. -/
def putAt (v : List α) (i : Nat) (x : α) : Outcome (List α) :=
  if i < v.length then .ok (v.set i x) else .trap

/-- `frexp(x, exp)` (`/repo/vir/simd.h` 2536-2540): the element function returns its result and what it stores through
the pointer. -/
def mathOut (f : α → S → (β × γ) × S) (x : List α) (out : List γ) (s : S) : Outcome (List β × List γ × S) := do
  let (r, out, s) ← genS x.length (fun i (out, s) => do
    let a ← at' x i
    let ((b, c), s) := f a s
    let out ← putAt out i c
    .ok (b, out, s)) (out, s)
  .ok (r, out, s)

/-- `remquo(x, y, quo)` (`/repo/vir/simd.h` 2505-2509). -/
def remquo (f : α → α → S → (α × γ) × S) (x y : List α) (quo : List γ) (s : S) : Outcome (List α × List γ × S) := do
  let (r, out, s) ← genS x.length (fun i (out, s) => do
    let a ← at' x i
    let b ← at' y i
    let ((b, c), s) := f a b s
    let out ← putAt out i c
    .ok (b, out, s)) (quo, s)
  .ok (r, out, s)

/-- `modf(x, iptr)` (`/repo/vir/simd.h` 2531-2534). Both have the same type, so `iptr` may point to `x`: then `x` is `none`. -/
def modf (f : α → S → (α × α) × S) (x : Option (List α)) (out : List α) (s : S) :
    Outcome (List α × List α × S) := do
  let (r, out, s) ← genS (x.getD out).length (fun i (out, s) => do
    let a ← at' (x.getD out) i
    let ((b, c), s) := f a s
    let out ← putAt out i c
    .ok (b, out, s)) (out, s)
  .ok (r, out, s)

/-- Compound assignment `+= -= *= /=` (`/repo/vir/simd.h` 1692-1722) for any element operation; the right-hand side is `none`
when it is the same object. -/
def compoundS (f : α → α → S → α × S) (lhs : List α) (rhs : Option (List α)) (s : S) : Outcome (List α × S) :=
  forUp (fun i (d, s) => do
    let a ← rd d i
    let b ← rd (rhs.getD d) i
    let (c, s) := f a b s
    let d ← wr d i c
    .ok (d, s)) lhs.length 0 (lhs, s)

/-- `++` and `--` (`/repo/vir/simd.h` 1643-1676) for any element operation: new value of the object. -/
def stepS (f : α → S → α × S) (x : List α) (s : S) : Outcome (List α × S) :=
  forUp (fun i (d, s) => do
    let a ← rd d i
    let (c, s) := f a s
    let d ← wr d i c
    .ok (d, s)) x.length 0 (x, s)

/-- `abs` of a signed integer simd (`/repo/vir/simd.h` 2489-2492): `std::abs` of the promoted value, converted back by the
generator constructor. -/
def absInt (t : IntTy) (x : List Int) : Outcome (List Int) :=
  gen x.length fun i => do
    let a ← at' x i
    let r ← t.promote.arith (if a < 0 then -a else a)
    .ok (t.conv r)

end Vir.Simd
