import Verif.Outcome
import Verif.Model.Policy
import Verif.Model.Bits

/-!
# Model of `vir::for_each`

`/repo/vir/simd_execution.h`: `simd_load_and_invoke` 48-60, prologue 88-219, epilogue 221-356, `prologue`
560-609, `for_each` 1110-1172.

A simd object is the list of its lanes. The range `[first, last)` is a list of elements; `first` is position 0
and `last` is position `n`. Positions (iterators) are integers, so that `last - size` can be represented when
it lies before `first`. With `Env.strictPtr` forming a pointer outside `[first, last]` is undefined, as in ISO
C++ when the range is a whole array; without it pointers are flat addresses, as on the compilers' targets.
-/

namespace Vir

/-- Everything the instantiation and the call site fix, besides the callable and the data. `/repo/vir/simd_execution.h` 1110-1172. -/
structure Env where
  /-- `V::size()` of `V = simdize<T, ExecutionPolicy::_size>` -/
  size : Nat
  /-- `sizeof(T)` -/
  sz : Nat
  /-- `memory_alignment_v<simdize<T, w>>` in bytes (`/repo/vir/simd_execution.h` 538-558; a table supplied by the simd
  implementation) -/
  al : Nat → Nat
  /-- the execution policy -/
  pol : Policy
  /-- `reinterpret_cast<uintptr_t>(std::to_address(first))` -/
  addr : Nat
  /-- `std::is_constant_evaluated()` -/
  constEval : Bool := false
  /-- `__OPTIMIZE_SIZE__` -/
  optSize : Bool := false
  /-- model ISO C++ pointer arithmetic strictly: forming an iterator before `first` is undefined -/
  strictPtr : Bool := false

/-- A callable with state `σ`. It receives the simd objects of one invocation and leaves new contents in
them. `shape` is the C++ typing fact that a simd object cannot change its width and that the number of
arguments is fixed. `fun` in `/repo/vir/simd_execution.h` 48-60. -/
structure Callable (σ α : Type) where
  call : σ → List (List α) → σ × List (List α)
  shape : ∀ s cs, (call s cs).2.map List.length = cs.map List.length

namespace ForEach

variable {σ α : Type}

/-- State of a run: state of the callable and contents of the range. `/repo/vir/simd_execution.h` 1110-1172. -/
abbrev St (σ α : Type) := σ × List α

/-- `[pos, pos + w)` lies inside a range of `n` elements. The accesses of `/repo/vir/simd_execution.h` 57-59. -/
def inRange (n : Nat) (pos : Int) (w : Nat) : Bool := decide (0 ≤ pos ∧ pos + w ≤ n)

/-- The address of element `pos` is a multiple of the alignment demanded by a `vector_aligned` access of `w`
elements. The accesses of `/repo/vir/simd_execution.h` 57-59 with the flags of 579-580. -/
def alignedAt (e : Env) (pos : Int) (w : Nat) : Bool :=
  decide (((e.addr : Int) + pos * e.sz) % (e.al w : Int) = 0)

/-- `V(ptr, flags)` with `V::size() == w` (load constructor; fallback `/repo/vir/simd.h` 1602-1606): undefined if it
leaves the range or violates the alignment promised by `vector_aligned`. -/
def load (e : Env) (mem : List α) (aligned : Bool) (w : Nat) (pos : Int) : Outcome (List α) :=
  if !inRange mem.length pos w then .ub .oob
  else if aligned && !alignedAt e pos w then .ub .misaligned
  else .ok ((mem.drop pos.toNat).take w)

/-- `v.copy_to(ptr, flags)` with `v.size() == w` (fallback `/repo/vir/simd.h` 1617-1624). -/
def store (e : Env) (mem : List α) (aligned : Bool) (w : Nat) (pos : Int) (v : List α) :
    Outcome (List α) :=
  if !inRange mem.length pos w then .ub .oob
  else if aligned && !alignedAt e pos w then .ub .misaligned
  else .ok (mem.take pos.toNat ++ v ++ mem.drop (pos.toNat + w))

/-- The pack expansion `V(ptr + V::size() * Is, f)...` (`/repo/vir/simd_execution.h` 58). -/
def loadAll (e : Env) (mem : List α) (aligned : Bool) (w : Nat) : Nat → Int → Outcome (List (List α))
  | 0, _ => .ok []
  | k + 1, pos => do
    let c ← load e mem aligned w pos
    let cs ← loadAll e mem aligned w k (pos + w)
    .ok (c :: cs)

/-- The fold expression `(chunks.copy_to(ptr + V::size() * Is, f), ...)` (`/repo/vir/simd_execution.h` 57). -/
def storeAll (e : Env) (aligned : Bool) (w : Nat) : List (List α) → Int → List α → Outcome (List α)
  | [], _, mem => .ok mem
  | c :: cs, pos, mem => do
    let mem ← store e mem aligned w pos c
    storeAll e aligned w cs (pos + w) mem

/-- `simd_load_and_invoke<V, write_back>(fun, ptr, f, index_sequence<0..k-1>)`, `/repo/vir/simd_execution.h` 48-60:
load `k` chunks of `w` elements, invoke `fun`, and if `wb` copy all of them back. -/
def loadAndInvoke (e : Env) (wb : Bool) (f : Callable σ α) (w : Nat) (aligned : Bool) (k : Nat) (pos : Int)
    (st : St σ α) : Outcome (St σ α) := do
  let chunks ← loadAll e st.2 aligned w k pos
  let r := f.call st.1 chunks
  if wb then do
    let mem ← storeAll e aligned w r.2 pos st.2
    .ok (r.1, mem)
  else .ok (r.1, st.2)

/-- The rows `VIR_CASE(N, M)` of the prologue jump table, `/repo/vir/simd_execution.h` 110-172, verbatim. -/
def prologueTable : List (Nat × Nat) :=
  [(1, 0), (2, 0), (3, 2), (4, 0), (5, 4), (6, 4), (7, 6), (8, 0), (9, 8), (10, 8), (11, 10), (12, 8),
   (13, 12), (14, 12), (15, 14), (16, 0), (17, 16), (18, 16), (19, 18), (20, 16), (21, 20), (22, 20),
   (23, 22), (24, 16), (25, 24), (26, 24), (27, 26), (28, 24), (29, 28), (30, 28), (31, 30), (32, 0),
   (33, 32), (34, 32), (35, 34), (36, 32), (37, 36), (38, 34), (39, 38), (40, 32), (41, 40), (42, 40),
   (43, 42), (44, 40), (45, 44), (46, 44), (47, 46), (48, 32), (49, 48), (50, 48), (51, 50), (52, 48),
   (53, 52), (54, 52), (55, 54), (56, 48), (57, 56), (58, 56), (59, 58), (60, 56), (61, 60), (62, 60),
   (63, 62)]

/-- The rows `VIR_CASE(N, M)` of the epilogue jump table, `/repo/vir/simd_execution.h` 242-304, verbatim. -/
def epilogueTable : List (Nat × Nat) :=
  [(1, 0), (2, 0), (3, 1), (4, 0), (5, 1), (6, 2), (7, 3), (8, 0), (9, 1), (10, 2), (11, 3), (12, 4),
   (13, 5), (14, 6), (15, 7), (16, 0), (17, 1), (18, 2), (19, 3), (20, 4), (21, 5), (22, 6), (23, 7),
   (24, 8), (25, 9), (26, 10), (27, 11), (28, 12), (29, 13), (30, 14), (31, 15), (32, 0), (33, 1), (34, 2),
   (35, 3), (36, 4), (37, 5), (38, 6), (39, 7), (40, 8), (41, 9), (42, 10), (43, 11), (44, 12), (45, 13),
   (46, 14), (47, 15), (48, 16), (49, 17), (50, 18), (51, 19), (52, 20), (53, 21), (54, 22), (55, 23),
   (56, 24), (57, 25), (58, 26), (59, 27), (60, 28), (61, 29), (62, 30), (63, 31)]

/-- The labels `caseN: ... goto caseM` of both jump tables (`/repo/vir/simd_execution.h` 96-107 and 231-239): label 0
returns; label `N` is unreachable if `N >= bound`, otherwise it processes `N - M` elements at `ptr` and goes on
at label `M`. The recursion is on fuel; running out of it is the distinct outcome `diverge`. -/
def jumpFrom (e : Env) (wb : Bool) (f : Callable σ α) (table : List (Nat × Nat)) (bound : Nat)
    (aligned : Bool) : Nat → Nat → Int → St σ α → Outcome (St σ α)
  | 0, _, _, _ => .ub .diverge
  | fuel + 1, n, pos, st =>
    if n = 0 then .ok st
    else match table.lookup n with
      | none => .ub .staticAssert  -- no such label: would not compile
      | some m =>
        if n ≥ bound then .ub .unreachable
        else do
          let st ← loadAndInvoke e wb f (n - m) aligned 1 pos st
          jumpFrom e wb f table bound aligned fuel m (pos + ((n - m : Nat) : Int)) st

/-- `switch (n)` of both jump tables: there is no `case 0`, values without a row hit `default: unreachable()`
(`/repo/vir/simd_execution.h` 94, 175-176 and 229, 307-308). -/
def jumpTable (e : Env) (wb : Bool) (f : Callable σ α) (table : List (Nat × Nat)) (bound : Nat)
    (aligned : Bool) (n : Nat) (pos : Int) (st : St σ α) : Outcome (St σ α) :=
  match table.lookup n with
  | none => .ub .unreachable
  | some _ => jumpFrom e wb f table bound aligned (n + 1) n pos st

/-- `simd_for_each_prologue<V, write_back, max_elements>`, `/repo/vir/simd_execution.h` 182-219, for
`V::size() == 2^k` (the `static_assert` at 188). `ptr` is the iterator `pos`. -/
def prologueRec (e : Env) (wb : Bool) (f : Callable σ α) (max toProcess : Nat) (k : Nat) (pos : Int)
    (st : St σ α) : Outcome (St σ α) :=
  if !(decide (max > 1) && hasSingleBit max) then .ub .staticAssert
  else if toProcess = 0 ∨ toProcess ≥ max then .ub .unreachable
  else if max = 2 then loadAndInvoke e wb f (2 ^ k) true 1 pos st
  else if !e.optSize && decide (2 ^ k = 1 ∧ max < 64) && !e.constEval then
    jumpTable e wb f prologueTable max true toProcess pos st
  else do
    let (pos, st) ←
      if (2 ^ k &&& toProcess) ≠ 0 then do
        let st ← loadAndInvoke e wb f (2 ^ k) true 1 pos st
        Outcome.ok (pos + ((2 ^ k : Nat) : Int), st)
      else Outcome.ok (pos, st)
    if _h : 2 ^ k * 2 < max then prologueRec e wb f max toProcess (k + 1) pos st
    else .ok st
termination_by max - 2 ^ k
decreasing_by
  have : 0 < 2 ^ k := Nat.two_pow_pos k
  rw [Nat.pow_succ]; omega

/-- `stdBitCeil n / 2 < n`: the epilogue recursion terminates. -/
theorem half_bitCeil_lt {n : Nat} (h : 1 < n) : stdBitCeil n / 2 < n := by
  unfold stdBitCeil
  rw [if_neg (by omega), Nat.pow_succ, Nat.mul_div_cancel _ (by omega)]
  have := Nat.log2_self_le (n := n - 1) (by omega)
  omega

/-- `simd_for_each_epilogue<V0, write_back>(fun, leftover, last, f)`, `/repo/vir/simd_execution.h` 314-356, for
`V0::size() == v0`. -/
def epilogue (e : Env) (wb : Bool) (f : Callable σ α) (v0 leftover : Nat) (last : Int) (aligned : Bool)
    (st : St σ α) : Outcome (St σ α) :=
  if _hv : v0 ≤ 1 then .ub .staticAssert
  else if v0 = 2 then loadAndInvoke e wb f 1 aligned 1 (last - 1) st
  else if decide (v0 ≤ 4) && !e.constEval then
    jumpTable e wb f epilogueTable v0 aligned leftover (last - leftover) st
  else if !e.optSize && decide (v0 ≤ 64) && !e.constEval then
    jumpTable e wb f epilogueTable v0 aligned leftover (last - leftover) st
  else
    let w := stdBitCeil v0 / 2
    do
      let (leftover, st) ←
        if (leftover &&& w) ≠ 0 then do
          let st ← loadAndInvoke e wb f w aligned 1 (last - leftover) st
          Outcome.ok (leftover - w, st)
        else Outcome.ok (leftover, st)
      if w > 1 then
        if leftover ≠ 0 then epilogue e wb f w leftover last aligned st else .ok st
      else .ok st
termination_by v0
decreasing_by exact half_bitCeil_lt (by omega)

/-- `prologue_is_possible`, `/repo/vir/simd_execution.h` 569-571. -/
def prologuePossible (e : Env) : Bool :=
  decide (e.size > 1) && decide ((e.size * e.sz) % e.al e.size = 0) && decide (e.al e.size > e.sz)

/-- `use_aligned_loadstore`, `/repo/vir/simd_execution.h` 573-574; also `flags` (579-580): `vector_aligned` iff this holds. -/
def useAligned (e : Env) : Bool := e.pol.prefersAligned && prologuePossible e

/-- `maybe_execute_prologue_anyway`, `/repo/vir/simd_execution.h` 576-577. -/
def maybeAnyway (e : Env) : Bool := e.pol.autoPrologue && prologuePossible e

/-- `max_misalignment`, `/repo/vir/simd_execution.h` 590. -/
def maxMisalignment (e : Env) : Nat := e.al e.size / e.sz

/-- `misaligned_by_bytes`, `/repo/vir/simd_execution.h` 591-593. -/
def misalignedBytes (e : Env) : Nat := e.addr % e.al e.size

/-- `to_process`, `/repo/vir/simd_execution.h` 596-597 (`misaligned_by_elements < max_misalignment`, so the unsigned subtraction does not
wrap). -/
def toProcess (e : Env) : Nat := maxMisalignment e - misalignedBytes e / e.sz

/-- `2^64`, the range of `std::size_t`. `std::size_t`, `/repo/vir/simd_execution.h` 583, 1142. -/
def sizeT : Nat := 2 ^ 64

/-- `prologue<V, ExecutionPolicy>::operator()(remaining, iterator_to_align, do_prologue, iterators...)`,
`/repo/vir/simd_execution.h` 582-608. Returns the advanced position, `remaining` (an unsigned 64-bit value that may wrap)
and the state. Generic in `do_prologue` since `transform` and `transform_reduce` use it too. -/
def runPrologue {S : Type} (e : Env) (remaining : Nat) (doPrologue : Nat → Nat → S → Outcome S) (first : Int)
    (st : S) : Outcome (Int × Nat × S) :=
  if useAligned e || maybeAnyway e then
    if misalignedBytes e = 0 then .ok (first, remaining, st)
    else if useAligned e then do
      let st ← doPrologue (maxMisalignment e) (toProcess e) st
      .ok (first + toProcess e, (remaining + sizeT - toProcess e) % sizeT, st)
    else if (remaining * e.sz) % sizeT > 4000 ∨ (toProcess e &&& remaining) = toProcess e then do
      let st ← doPrologue (maxMisalignment e) (toProcess e) st
      .ok (first + toProcess e, (remaining + sizeT - toProcess e) % sizeT, st)
    else .ok (first, remaining, st)
  else .ok (first, remaining, st)

/-- `it - k`. `/repo/vir/simd_execution.h` 331, 351, 1151, 1163. -/
def subPtr (e : Env) (it : Int) (k : Nat) : Outcome Int :=
  if e.strictPtr && decide (it - k < 0) then .ub .badPointer else .ok (it - k)

/-- `for (; cond(first); first += step) body(first)`; the first argument bounds the number of iterations. The loops of `/repo/vir/simd_execution.h` 1133, 1155, 1164. -/
def whileLoop {S : Type} (cond : Int → Bool) (step : Nat) (body : Int → S → Outcome S) :
    Nat → Int → S → Outcome (Int × S)
  | 0, _, _ => .ub .diverge
  | fuel + 1, pos, st =>
    if cond pos then do
      let st ← body pos st
      whileLoop cond step body fuel (pos + step) st
    else .ok (pos, st)

/-- The loop `for (; first + (size - 1) < last; first += size)` of the constant-evaluated branch,
`/repo/vir/simd_execution.h` 1133-1135 (and 742-746 in `transform`); forming `first + (size - 1)` past the end of the
range is undefined in the strict pointer model. -/
def constLoop {S : Type} (e : Env) (n : Nat) (body : Int → S → Outcome S) : Nat → Int → S → Outcome (Int × S)
  | 0, _, _ => .ub .diverge
  | fuel + 1, pos, st =>
    if e.strictPtr && decide (pos + ((e.size : Int) - 1) > n) then .ub .badPointer
    else if pos + ((e.size : Int) - 1) < n then do
      let st ← body pos st
      constLoop e n body fuel (pos + e.size) st
    else .ok (pos, st)

/-- The unrolled loop, `/repo/vir/simd_execution.h` 1151-1161; `n` is the position of `last`. -/
def unrolledLoop (e : Env) (wb : Bool) (f : Callable σ α) (n : Nat) (first : Int) (st : St σ α) :
    Outcome (Int × St σ α) :=
  if e.pol.unrollBy > 1 then do
    let step := e.size * e.pol.unrollBy.toNat
    let unrolledLast ← subPtr e n step
    whileLoop (fun first => decide (first ≤ unrolledLast)) step
      (fun first => loadAndInvoke e wb f e.size (useAligned e) e.pol.unrollBy.toNat first) (n + 1) first st
  else .ok (first, st)

/-- `vir::for_each(pol, first, last, fun)`, `/repo/vir/simd_execution.h` 1110-1172. `wb` is the compile-time constant
`write_back` (1118-1119). -/
def forEach (e : Env) (wb : Bool) (f : Callable σ α) (s : σ) (mem : List α) : Outcome (St σ α) :=
  let n := mem.length
  let last : Int := n
  if n = 0 then .ok (s, mem)
  else if e.pol.assumeMatchingSize && n % e.size != 0 then .trap
  else if e.constEval then do
    let (_, st) ← constLoop e n (fun first => loadAndInvoke e wb f e.size false 1 first) (n + 1) 0 (s, mem)
    if e.size > 1 then epilogue e wb f e.size (n % e.size) last false st else .ok st
  else do
    let (first, remaining, st) ← runPrologue e n
      (fun max tp st => prologueRec e wb f max tp 0 0 st) 0 (s, mem)
    let leftover := remaining % e.size
    let (first, st) ← unrolledLoop e wb f n first st
    let simdLast ← subPtr e last e.size
    let (_, st) ← whileLoop
      (fun first => if e.pol.assumeMatchingSize then decide (first ≠ last) else decide (first ≤ simdLast))
      e.size (fun first => loadAndInvoke e wb f e.size (useAligned e) 1 first) (n + 1) first st
    if !e.pol.assumeMatchingSize && decide (e.size > 1) then
      if leftover ≠ 0 then epilogue e wb f e.size leftover last (useAligned e) st else .ok st
    else .ok st

end ForEach
end Vir
