import Verif.Model.TransformGen

/-!
# The range and `zip_view` overloads of `vir::transform`

`/repo/vir/simd_execution.h`: unary and binary range overloads 1231-1249, `zip_view` overload 1250-1270. They take lengths from
different ranges, so here every range has its own length and every access is checked against the range it belongs to. All ranges live in
one arena (as in `Verif/Model/Transform.lean`).
-/

namespace Vir

/-- A contiguous range: the offset of its first element in the arena and `std::ranges::size`. The range arguments of `/repo/vir/simd_execution.h` 1228-1270. -/
structure Rng where
  base : Nat
  len : Nat
deriving DecidableEq, Repr

namespace Transform
open ForEach

variable {α : Type}

/-- `iter_simdize_t<It, w>(std::to_address(it), element_aligned)` (`/repo/vir/simd_execution.h` 623) for an iterator into `r`. -/
def loadRng (mem : List α) (w : Nat) (r : Rng) (pos : Int) : Outcome (List α) :=
  if inRange r.len pos w && inRange mem.length (r.base + pos) w then .ok ((mem.drop (r.base + pos).toNat).take w)
  else .ub .oob

/-- The pack expansion over `first2...`. `/repo/vir/simd_execution.h` 618-624. -/
def loadRngs (mem : List α) (w : Nat) (pos : Int) : List Rng → Outcome (List (List α))
  | [] => .ok []
  | r :: rs => do
    let c ← loadRng mem w r pos
    let cs ← loadRngs mem w pos rs
    .ok (c :: cs)

/-- `copy_to(std::to_address(d_first), flags)` for an iterator into `d`. `/repo/vir/simd_execution.h` 657-658, 689-690, 698-700. -/
def storeRng (e : Env) (d : Rng) (mem : List α) (aligned : Bool) (w : Nat) (pos : Int) (v : List α) : Outcome (List α) :=
  if !(inRange d.len pos w && inRange mem.length (d.base + pos) w) then .ub .oob
  else if aligned && !alignedAt e pos w then .ub .misaligned
  else .ok (mem.take (d.base + pos).toNat ++ v ++ mem.drop ((d.base + pos).toNat + w))

/-- The loads and invocations of `k` chunks (`/repo/vir/simd_execution.h` 618-624, 777-779). -/
def loadsR (r1 : Rng) (rs : List Rng) (op : VecOp α α) (mem : List α) (w : Nat) : Nat → Int → Int → Outcome (List (List α))
  | 0, _, _ => .ok []
  | k + 1, p1, p2 => do
    let c ← loadRng mem w r1 p1
    let cs ← loadRngs mem w p2 rs
    let vs ← loadsR r1 rs op mem w k (p1 + w) (p2 + w)
    .ok (op.call (c :: cs) :: vs)

/-- The stores of `k` chunks (`/repo/vir/simd_execution.h` 780-782). -/
def storesR (e : Env) (d : Rng) (aligned : Bool) (w : Nat) : List (List α) → Int → List α → Outcome (List α)
  | [], _, mem => .ok mem
  | v :: vs, p, mem => do
    let mem ← storeRng e d mem aligned w p v
    storesR e d aligned w vs (p + w) mem

/-- One group of `k` chunks. `/repo/vir/simd_execution.h` 742-746, 771-792. -/
def chunksR (e : Env) (r1 : Rng) (rs : List Rng) (d : Rng) (op : VecOp α α) : TInv (List α) := fun w aligned k p1 pd p2 mem => do
  let vs ← loadsR r1 rs op mem w k p1 p2
  storesR e d aligned w vs pd mem

/-- `transform(pol, r1, d_rng, unary_op)` and `transform(pol, r1, r2, d_rng, binary_op)` (`/repo/vir/simd_execution.h` 1231-1249):
`begin` and `end` of `r1`, `begin` of the others; the lengths of `r2` and `d_rng` are not looked at. -/
def transformRanges (e : Env) (r1 : Rng) (rs : List Rng) (d : Rng) (op : VecOp α α) (mem : List α) : Outcome (Int × List α) :=
  transformG ⟨e, r1.base :: rs.map Rng.base, d.base, r1.len⟩ (chunksR e r1 rs d op) mem

/-- `std::ranges::size(zip_view)`: the smallest size. `/repo/vir/simd_execution.h` 1256. -/
def zipSize (r1 : Rng) (rs : List Rng) : Nat := rs.foldl (fun n r => min n r.len) r1.len

/-- `transform(pol, zip_view, d_rg, op)` (`/repo/vir/simd_execution.h` 1250-1270): `first0` is the address of the first element of the
first range, the number of elements is the size of the `zip_view`. `*it` (1260, 1272) is evaluated even if the `zip_view` is empty, which
ISO C++ leaves undefined. Simplification: `op` takes its arguments as a list instead of a `std::pair` (two ranges) or `std::tuple`. -/
def transformZip (e : Env) (r1 : Rng) (rs : List Rng) (d : Rng) (op : VecOp α α) (mem : List α) : Outcome (Int × List α) :=
  let size := zipSize r1 rs
  if e.strictPtr && decide (size = 0) then .ub .badPointer
  else transformG ⟨e, r1.base :: rs.map Rng.base, d.base, size⟩ (chunksR e r1 rs d op) mem

end Transform
end Vir
