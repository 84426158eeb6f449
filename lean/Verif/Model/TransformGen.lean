import Verif.Model.Transform

/-!
# `vir::transform` with the processing of a chunk as a parameter

`detail::transform` is a template; what depends on the types of the elements and on the operation is what happens to one group of
chunks: load, invoke the operation, store. Here that is a parameter `inv w aligned k p1 d p2`: `k` chunks of width `w`, starting at the
positions `p1` (of `first1`), `d` (of `d_first`) and `p2` (of `first2...`). The definitions below are those of
`Verif/Model/Transform.lean` (same lines of the code); `transform_eq_transformG` in `Verif/Lemmas/TransformGenEq.lean` shows that they agree.
-/

namespace Vir.Transform
open ForEach

/-- The processing of `k` chunks: `simdized_load_and_invoke` and `copy_to` (`/repo/vir/simd_execution.h` 657-658, 689-690, 698-700,
744-745, 777-782, 790-791). -/
abbrev TInv (S : Type) := (w : Nat) → (aligned : Bool) → (k : Nat) → (p1 d p2 : Int) → S → Outcome S

variable {S : Type}

/-- `simd_transform_prologue` (`/repo/vir/simd_execution.h` 636-669). -/
def prologueRecG (inv : TInv S) (max toProcess k : Nat) (p d : Int) (st : S) : Outcome S :=
  if !(decide (max > 1) && hasSingleBit max && decide (2 ^ k < max)) then .ub .staticAssert
  else if toProcess = 0 ∨ toProcess ≥ max then .ub .unreachable
  else do
    let (p, d, st) ←
      if max = 2 ∨ (2 ^ k &&& toProcess) ≠ 0 then do
        let st ← inv (2 ^ k) true 1 p d p st
        if max = 2 then Outcome.ok (p, d, st)
        else Outcome.ok (p + ((2 ^ k : Nat) : Int), d + ((2 ^ k : Nat) : Int), st)
      else Outcome.ok (p, d, st)
    if _h : 2 ^ k * 2 < max then prologueRecG inv max toProcess (k + 1) p d st
    else .ok st
termination_by max - 2 ^ k
decreasing_by
  have : 0 < 2 ^ k := Nat.two_pow_pos k
  rw [Nat.pow_succ]; omega

/-- `simd_transform_epilogue` (`/repo/vir/simd_execution.h` 671-708). -/
def epilogueG (inv : TInv S) (v0 leftover : Nat) (last d p2 : Int) (aligned : Bool) (st : S) : Outcome S :=
  if _hv : v0 ≤ 1 then .ub .staticAssert
  else if v0 = 2 then inv 1 aligned 1 (last - 1) d p2 st
  else
    let w := stdBitCeil v0 / 2
    do
      let (leftover, d, p2, st) ←
        if (leftover &&& w) ≠ 0 then do
          let st ← inv w aligned 1 (last - leftover) d p2 st
          Outcome.ok (leftover - w, d + (w : Int), p2 + (w : Int), st)
        else Outcome.ok (leftover, d, p2, st)
      if w > 1 then
        if leftover ≠ 0 then epilogueG inv w leftover last d p2 aligned st else .ok st
      else .ok st
termination_by v0
decreasing_by exact half_bitCeil_lt (by omega)

/-- Loop body: process `k` chunks of width `w` at the current iterators and advance `d_first` and `first2...`
(`/repo/vir/simd_execution.h` 742-746, 748-753, 775-783, 787-792). -/
def stepG (inv : TInv S) (aligned : Bool) (w k : Nat) (first1 : Int) (st : Int × Int × S) : Outcome (Int × Int × S) := do
  let s ← inv w aligned k first1 st.1 st.2.1 st.2.2
  .ok (st.1 + ((w * k : Nat) : Int), st.2.1 + ((w * k : Nat) : Int), s)

/-- The unrolled loop (`/repo/vir/simd_execution.h` 771-784). -/
def unrolledLoopG (t : TEnv) (inv : TInv S) (first1 : Int) (st : Int × Int × S) : Outcome (Int × Int × Int × S) :=
  if t.e.pol.unrollBy > 1 then do
    let step := t.e.size * t.e.pol.unrollBy.toNat
    let unrolledLast ← subPtr t.e t.n step
    whileLoop (fun first1 => decide (first1 ≤ unrolledLast)) step
      (stepG inv (useAligned t.e) t.e.size t.e.pol.unrollBy.toNat) (t.n + 1) first1 st
  else .ok (first1, st)

/-- `detail::transform` (`/repo/vir/simd_execution.h` 710-806). -/
def transformG (t : TEnv) (inv : TInv S) (st : S) : Outcome (Int × S) :=
  let n := t.n
  let last1 : Int := n
  let size := t.e.size
  if n = 0 then .ok (0, st)
  else if t.e.pol.assumeMatchingSize && n % size != 0 then .trap
  else if t.e.constEval then do
    let (first1, st) ← constLoop t.e n (stepG inv false size 1) (n + 1) 0 (0, 0, st)
    let (_, st) ← whileLoop (fun first1 => decide (first1 < last1)) 1 (stepG inv false 1 1) (n + 1) first1 st
    .ok (st.1, st.2.2)
  else do
    let (adv, distance, st) ← runPrologue t.e n (fun max tp st => prologueRecG inv max tp 0 0 0 st) 0 st
    let (first1, st) ← unrolledLoopG t inv adv (adv, adv, st)
    let simdLast ← subPtr t.e last1 size
    let (_, st) ← whileLoop
      (fun first1 => if t.e.pol.assumeMatchingSize then decide (first1 ≠ last1) else decide (first1 ≤ simdLast))
      size (stepG inv (useAligned t.e) size 1) (n + 1) first1 st
    if decide (size > 1) && !t.e.pol.assumeMatchingSize then
      let leftover := distance % size
      if leftover ≠ 0 then do
        let s ← epilogueG inv size leftover last1 st.1 st.2.1 (useAligned t.e) st.2.2
        .ok (st.1 + leftover, s)
      else .ok (st.1, st.2.2)
    else .ok (st.1, st.2.2)

end Vir.Transform
