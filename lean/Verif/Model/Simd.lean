import Verif.Outcome

/-!
# The fallback `simd` and `simd_mask` (`/repo/vir/simd.h`)

A `simd` or `simd_mask` object is the list of its lanes (`T data[N]`, `/repo/vir/simd.h` 772, 1541); the scalar-ABI
classes are lists of length one. Loops and pack expansions are modelled with the combinators below, so that the
order of evaluation, early returns and out-of-range accesses are visible.
-/

namespace Vir.Simd

variable {α β S : Type}

/-- `for (i = start; count iterations; ++i) st = body(i, st)`: the loop shape of `/repo/vir/simd.h` 846, 1008, ... -/
def forUp (body : Nat → S → Outcome S) : Nat → Nat → S → Outcome S
  | 0, _, st => .ok st
  | c + 1, i, st => do forUp body c (i + 1) (← body i st)

/-- `for (i = start; count iterations; ++i) if (auto r = body(i)) return *r; return dflt;`: the loop with early
return of `/repo/vir/simd.h` 999-1003 and following. -/
def searchUp (body : Nat → Outcome (Option β)) (dflt : Outcome β) : Nat → Nat → Outcome β
  | 0, _ => dflt
  | c + 1, i => do
    match ← body i with
    | some r => .ok r
    | none => searchUp body dflt c (i + 1)

/-- `for (int i = count - 1; i >= 0; --i) if (auto r = body(i)) return *r; return dflt;`
(`/repo/vir/simd.h` 1072-1076). -/
def searchDown (body : Nat → Outcome (Option β)) (dflt : Outcome β) : Nat → Outcome β
  | 0 => dflt
  | i + 1 => do
    match ← body i with
    | some r => .ok r
    | none => searchDown body dflt i

/-- `simd::operator[](size_t) const` and `simd_mask::operator[](size_t) const` (`/repo/vir/simd.h` 845-851,
1635-1641): a failed precondition traps. -/
def at' (v : List α) (i : Nat) : Outcome α :=
  match v[i]? with
  | some x => .ok x
  | none => .trap

/-- Reading `data[i]` or `mem[i]`: an access outside the array is undefined. `/repo/vir/simd.h` 772-778, 1541, 1555. -/
def rd (v : List α) (i : Nat) : Outcome α :=
  match v[i]? with
  | some x => .ok x
  | none => .ub .oob

/-- Writing `data[i] = x` or `mem[i] = x`: an access outside the array is undefined. `/repo/vir/simd.h` 772-778, 1541, 1555. -/
def wr (v : List α) (i : Nat) (x : α) : Outcome (List α) :=
  if i < v.length then .ok (v.set i x) else .ub .oob

/-- The generator constructors (`/repo/vir/simd.h` 774-778, 1552-1556): `data {gen(0), gen(1), ..., gen(N-1)}`, starting
with lane `i`. -/
def genFrom (f : Nat → Outcome α) : Nat → Nat → Outcome (List α)
  | 0, _ => .ok []
  | c + 1, i => do
    let x ← f i
    let xs ← genFrom f c (i + 1)
    .ok (x :: xs)

/-- Generator constructor of an `n`-lane object. `/repo/vir/simd.h` 774-778, 797-803, 1552-1556, 1593-1599. -/
def gen (n : Nat) (f : Nat → Outcome α) : Outcome (List α) := genFrom f n 0

/-- Load constructors (`/repo/vir/simd.h` 812-816, 1601-1606) and `copy_from` (824-828, 1608-1615) of an `n`-lane object,
reading from `mem + off`. The conversion of the memory element to the lane type is omitted. -/
def load (n : Nat) (mem : List α) (off : Nat) : Outcome (List α) := gen n fun i => rd mem (off + i)

end Vir.Simd
