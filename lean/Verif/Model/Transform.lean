import Verif.Model.ForEach

/-!
# Model of `vir::transform`

`/repo/vir/simd_execution.h`: `simdized_load_and_invoke` 618-624, `simd_transform_prologue` 636-669,
`simd_transform_epilogue` 671-708, `detail::transform` 710-806.

All ranges live in one arena `List α` so that the output may overlap the inputs. A range is an offset into the
arena; iterators are integers relative to the start of their range. Every access is checked against its own
range `[0, n)`. Simplifications: all ranges have one element type `α` in the model (the C++ ranges may have
different value types); `Env.sz`, `Env.al`, `Env.addr` describe the output range, the only one whose alignment
matters. `op` is a function without side effects, since the order in which the unrolled loop evaluates it is
unspecified in C++ (function arguments, `/repo/vir/detail.h` 276-278).
-/

namespace Vir

/-- A vector callable: from simd arguments of a common width to a simd result of that width (the result is
converted to `simdize<OutT, w>`). It may depend on all lanes, it need not act lane-wise. `op`, `/repo/vir/simd_execution.h` 618-624. -/
structure VecOp (α β : Type) where
  call : List (List α) → List β
  shape : ∀ w args, args ≠ [] → (∀ a ∈ args, a.length = w) → (call args).length = w

/-- The arguments of `transform` apart from `op`: `ins` are the offsets of `first1, first2...`, `out` is the
offset of `d_first`, `n == last1 - first1`. `e.addr` is the address of `d_first`, `e.sz == sizeof(OutT)`,
`e.al w == memory_alignment_v<simdize<OutT, w>>`. `/repo/vir/simd_execution.h` 710-713. -/
structure TEnv where
  e : Env
  ins : List Nat
  out : Nat
  n : Nat

namespace Transform
open ForEach

variable {α : Type}

/-- `iter_simdize_t<It, w>(std::to_address(it), element_aligned)`, `/repo/vir/simd_execution.h` 623: a load of `w` elements at position
`pos` of the range starting at arena offset `base`. -/
def loadIn (t : TEnv) (mem : List α) (w : Nat) (base : Nat) (pos : Int) : Outcome (List α) :=
  if inRange t.n pos w && inRange mem.length (base + pos) w then
    .ok ((mem.drop (base + pos).toNat).take w)
  else .ub .oob

/-- The pack expansion over `first2...`, all at position `pos`. `/repo/vir/simd_execution.h` 623. -/
def loadIns (t : TEnv) (mem : List α) (w : Nat) (pos : Int) : List Nat → Outcome (List (List α))
  | [] => .ok []
  | b :: bs => do
    let c ← loadIn t mem w b pos
    let cs ← loadIns t mem w pos bs
    .ok (c :: cs)

/-- `simdized_load_and_invoke(op, size, it1, it2...)`, `/repo/vir/simd_execution.h` 618-624; `it1` is at position `p1`, all `it2` are at
position `p2`. -/
def loadAndInvoke (t : TEnv) (op : VecOp α α) (mem : List α) (w : Nat) (p1 p2 : Int) : Outcome (List α) :=
  match t.ins with
  | [] => .ub .staticAssert
  | b1 :: bs => do
    let c ← loadIn t mem w b1 p1
    let cs ← loadIns t mem w p2 bs
    .ok (op.call (c :: cs))

/-- `result.copy_to(std::to_address(d_first), flags)` with `result.size() == w`. `/repo/vir/simd_execution.h` 658, 690, 700, 745, 752, 781, 791. -/
def storeOut (t : TEnv) (mem : List α) (aligned : Bool) (w : Nat) (pos : Int) (v : List α) :
    Outcome (List α) :=
  if !(inRange t.n pos w && inRange mem.length (t.out + pos) w) then .ub .oob
  else if aligned && !alignedAt t.e pos w then .ub .misaligned
  else .ok (mem.take (t.out + pos).toNat ++ v ++ mem.drop ((t.out + pos).toNat + w))

/-- Load, invoke, store, as in `/repo/vir/simd_execution.h` 657-658, 689-690, 698-700, 744-745, 790-791. -/
def chunk (t : TEnv) (op : VecOp α α) (aligned : Bool) (w : Nat) (p1 d p2 : Int) (mem : List α) :
    Outcome (List α) := do
  let v ← loadAndInvoke t op mem w p1 p2
  storeOut t mem aligned w d v

/-- `simd_transform_prologue<R>(op, dst_ptr, to_process, max_elements, ptrs...)`, `/repo/vir/simd_execution.h` 636-669, for
`R::size() == 2^k`. `ptrs` are at position `p`, `dst_ptr` at position `d`. -/
def prologueRec (t : TEnv) (op : VecOp α α) (max toProcess k : Nat) (p d : Int) (mem : List α) :
    Outcome (List α) :=
  if !(decide (max > 1) && hasSingleBit max && decide (2 ^ k < max)) then .ub .staticAssert
  else if toProcess = 0 ∨ toProcess ≥ max then .ub .unreachable
  else do
    let (p, d, mem) ←
      if max = 2 ∨ (2 ^ k &&& toProcess) ≠ 0 then do
        let mem ← chunk t op true (2 ^ k) p d p mem
        if max = 2 then Outcome.ok (p, d, mem)
        else Outcome.ok (p + ((2 ^ k : Nat) : Int), d + ((2 ^ k : Nat) : Int), mem)
      else Outcome.ok (p, d, mem)
    if _h : 2 ^ k * 2 < max then prologueRec t op max toProcess (k + 1) p d mem
    else .ok mem
termination_by max - 2 ^ k
decreasing_by
  have : 0 < 2 ^ k := Nat.two_pow_pos k
  rw [Nat.pow_succ]; omega

/-- `simd_transform_epilogue<V0, R0>(op, leftover, last, d_first, f, ptrs...)`, `/repo/vir/simd_execution.h` 671-708, for
`V0::size() == v0`. `ptrs` (the iterators `first2...`) are at position `p2`. -/
def epilogue (t : TEnv) (op : VecOp α α) (v0 leftover : Nat) (last d p2 : Int) (aligned : Bool)
    (mem : List α) : Outcome (List α) :=
  if _hv : v0 ≤ 1 then .ub .staticAssert
  else if v0 = 2 then chunk t op aligned 1 (last - 1) d p2 mem
  else
    let w := stdBitCeil v0 / 2
    do
      let (leftover, d, p2, mem) ←
        if (leftover &&& w) ≠ 0 then do
          let mem ← chunk t op aligned w (last - leftover) d p2 mem
          Outcome.ok (leftover - w, d + (w : Int), p2 + (w : Int), mem)
        else Outcome.ok (leftover, d, p2, mem)
      if w > 1 then
        if leftover ≠ 0 then epilogue t op w leftover last d p2 aligned mem else .ok mem
      else .ok mem
termination_by v0
decreasing_by exact half_bitCeil_lt (by omega)

/-- First half of `unroll2` (`/repo/vir/detail.h` 270-280) as used in 777-780: load and invoke for all
`i < unroll_by`. -/
def unrollLoads (t : TEnv) (op : VecOp α α) (mem : List α) (w : Nat) :
    Nat → Int → Int → Outcome (List (List α))
  | 0, _, _ => .ok []
  | k + 1, p1, p2 => do
    let v ← loadAndInvoke t op mem w p1 p2
    let vs ← unrollLoads t op mem w k (p1 + w) (p2 + w)
    .ok (v :: vs)

/-- Second half of `unroll2` as used in `/repo/vir/simd_execution.h` 780-782: store all results. -/
def unrollStores (t : TEnv) (aligned : Bool) (w : Nat) : List (List α) → Int → List α → Outcome (List α)
  | [], _, mem => .ok mem
  | v :: vs, d, mem => do
    let mem ← storeOut t mem aligned w d v
    unrollStores t aligned w vs (d + w) mem

/-- The iterators `d_first` and `first2...` and the memory; `first1` is the loop variable. `/repo/vir/simd_execution.h` 742-746, 771-792. -/
abbrev LoopSt (α : Type) := Int × Int × List α

/-- Loop body: process one chunk at the current iterators and advance `d_first` and `first2...` by `w`
(`/repo/vir/simd_execution.h` 742-746, 748-753, 787-792). -/
def chunkStep (t : TEnv) (op : VecOp α α) (aligned : Bool) (w : Nat) (first1 : Int) (st : LoopSt α) :
    Outcome (LoopSt α) := do
  let mem ← chunk t op aligned w first1 st.1 st.2.1 st.2.2
  .ok (st.1 + w, st.2.1 + w, mem)

/-- The unrolled loop, `/repo/vir/simd_execution.h` 771-784. -/
def unrolledLoop (t : TEnv) (op : VecOp α α) (first1 : Int) (st : LoopSt α) : Outcome (Int × LoopSt α) :=
  if t.e.pol.unrollBy > 1 then do
    let step := t.e.size * t.e.pol.unrollBy.toNat
    let unrolledLast ← subPtr t.e t.n step
    whileLoop (fun first1 => decide (first1 ≤ unrolledLast)) step
      (fun first1 st => do
        let vs ← unrollLoads t op st.2.2 t.e.size t.e.pol.unrollBy.toNat first1 st.2.1
        let mem ← unrollStores t (useAligned t.e) t.e.size vs st.1 st.2.2
        .ok (st.1 + step, st.2.1 + step, mem))
      (t.n + 1) first1 st
  else .ok (first1, st)

/-- `detail::transform`, `/repo/vir/simd_execution.h` 710-806. The result is the returned iterator and the final memory. -/
def transform (t : TEnv) (op : VecOp α α) (mem : List α) : Outcome (Int × List α) :=
  let n := t.n
  let last1 : Int := n
  let size := t.e.size
  if n = 0 then .ok (0, mem)
  else if t.e.pol.assumeMatchingSize && n % size != 0 then .trap
  else if t.e.constEval then do
    let (first1, st) ← constLoop t.e n (chunkStep t op false size) (n + 1) 0 (0, 0, mem)
    let (_, st) ← whileLoop (fun first1 => decide (first1 < last1)) 1 (chunkStep t op false 1) (n + 1) first1 st
    .ok (st.1, st.2.2)
  else do
    let (adv, distance, mem) ← runPrologue t.e n (fun max tp mem => prologueRec t op max tp 0 0 0 mem) 0 mem
    let (first1, st) ← unrolledLoop t op adv (adv, adv, mem)
    let simdLast ← subPtr t.e last1 size
    let (_, st) ← whileLoop
      (fun first1 => if t.e.pol.assumeMatchingSize then decide (first1 ≠ last1) else decide (first1 ≤ simdLast))
      size (chunkStep t op (useAligned t.e) size) (n + 1) first1 st
    if decide (size > 1) && !t.e.pol.assumeMatchingSize then
      let leftover := distance % size
      if leftover ≠ 0 then do
        let mem ← epilogue t op size leftover last1 st.1 st.2.1 (useAligned t.e) st.2.2
        .ok (st.1 + leftover, mem)
      else .ok (st.1, st.2.2)
    else .ok (st.1, st.2.2)

end Transform
end Vir
