import Verif.Model.ForEach

/-!
# `vir::for_each` for any simd-like type

`for_each` is a template: the type `V` of the chunks need not be a `simd`, it may be a simdized struct. Everything that depends
on `V` is the invocation `inv w aligned k pos`, i.e. `simd_load_and_invoke<V, write_back>` (`/repo/vir/simd_execution.h` 48-60) with
`k` chunks of width `w` at position `pos`. The definitions below are those of `Verif/Model/ForEach.lean` (same lines of the code)
with that invocation as a parameter; `forEach_eq_forEachG` in `Verif/Lemmas/ForEachGen.lean` shows that they agree.
-/

namespace Vir.ForEach

/-- An instantiation of `simd_load_and_invoke` (`/repo/vir/simd_execution.h` 48-60). -/
abbrev Inv (S : Type) := (w : Nat) → (aligned : Bool) → (k : Nat) → (pos : Int) → S → Outcome S

variable {S : Type}

/-- The labels of the jump tables (`/repo/vir/simd_execution.h` 96-107, 231-239). -/
def jumpFromG (inv : Inv S) (table : List (Nat × Nat)) (bound : Nat) (aligned : Bool) :
    Nat → Nat → Int → S → Outcome S
  | 0, _, _, _ => .ub .diverge
  | fuel + 1, n, pos, st =>
    if n = 0 then .ok st
    else match table.lookup n with
      | none => .ub .staticAssert
      | some m =>
        if n ≥ bound then .ub .unreachable
        else do
          let st ← inv (n - m) aligned 1 pos st
          jumpFromG inv table bound aligned fuel m (pos + ((n - m : Nat) : Int)) st

/-- The `switch` of the jump tables (`/repo/vir/simd_execution.h` 94, 175-176, 229, 307-308). -/
def jumpTableG (inv : Inv S) (table : List (Nat × Nat)) (bound : Nat) (aligned : Bool) (n : Nat) (pos : Int) (st : S) :
    Outcome S :=
  match table.lookup n with
  | none => .ub .unreachable
  | some _ => jumpFromG inv table bound aligned (n + 1) n pos st

/-- `simd_for_each_prologue` (`/repo/vir/simd_execution.h` 182-219). -/
def prologueRecG (e : Env) (inv : Inv S) (max toProcess : Nat) (k : Nat) (pos : Int) (st : S) : Outcome S :=
  if !(decide (max > 1) && hasSingleBit max) then .ub .staticAssert
  else if toProcess = 0 ∨ toProcess ≥ max then .ub .unreachable
  else if max = 2 then inv (2 ^ k) true 1 pos st
  else if !e.optSize && decide (2 ^ k = 1 ∧ max < 64) && !e.constEval then
    jumpTableG inv prologueTable max true toProcess pos st
  else do
    let (pos, st) ←
      if (2 ^ k &&& toProcess) ≠ 0 then do
        let st ← inv (2 ^ k) true 1 pos st
        Outcome.ok (pos + ((2 ^ k : Nat) : Int), st)
      else Outcome.ok (pos, st)
    if _h : 2 ^ k * 2 < max then prologueRecG e inv max toProcess (k + 1) pos st
    else .ok st
termination_by max - 2 ^ k
decreasing_by
  have : 0 < 2 ^ k := Nat.two_pow_pos k
  rw [Nat.pow_succ]; omega

/-- `simd_for_each_epilogue` (`/repo/vir/simd_execution.h` 314-356). -/
def epilogueG (e : Env) (inv : Inv S) (v0 leftover : Nat) (last : Int) (aligned : Bool) (st : S) : Outcome S :=
  if _hv : v0 ≤ 1 then .ub .staticAssert
  else if v0 = 2 then inv 1 aligned 1 (last - 1) st
  else if decide (v0 ≤ 4) && !e.constEval then
    jumpTableG inv epilogueTable v0 aligned leftover (last - leftover) st
  else if !e.optSize && decide (v0 ≤ 64) && !e.constEval then
    jumpTableG inv epilogueTable v0 aligned leftover (last - leftover) st
  else
    let w := stdBitCeil v0 / 2
    do
      let (leftover, st) ←
        if (leftover &&& w) ≠ 0 then do
          let st ← inv w aligned 1 (last - leftover) st
          Outcome.ok (leftover - w, st)
        else Outcome.ok (leftover, st)
      if w > 1 then
        if leftover ≠ 0 then epilogueG e inv w leftover last aligned st else .ok st
      else .ok st
termination_by v0
decreasing_by exact half_bitCeil_lt (by omega)

/-- The unrolled loop (`/repo/vir/simd_execution.h` 1151-1161). -/
def unrolledLoopG (e : Env) (inv : Inv S) (n : Nat) (first : Int) (st : S) : Outcome (Int × S) :=
  if e.pol.unrollBy > 1 then do
    let step := e.size * e.pol.unrollBy.toNat
    let unrolledLast ← subPtr e n step
    whileLoop (fun first => decide (first ≤ unrolledLast)) step
      (fun first => inv e.size (useAligned e) e.pol.unrollBy.toNat first) (n + 1) first st
  else .ok (first, st)

/-- `vir::for_each` (`/repo/vir/simd_execution.h` 1110-1172) on a range of `n` elements. -/
def forEachG (e : Env) (inv : Inv S) (n : Nat) (st : S) : Outcome S :=
  let last : Int := n
  if n = 0 then .ok st
  else if e.pol.assumeMatchingSize && n % e.size != 0 then .trap
  else if e.constEval then do
    let (_, st) ← constLoop e n (fun first => inv e.size false 1 first) (n + 1) 0 st
    if e.size > 1 then epilogueG e inv e.size (n % e.size) last false st else .ok st
  else do
    let (first, remaining, st) ← runPrologue e n (fun max tp st => prologueRecG e inv max tp 0 0 st) 0 st
    let leftover := remaining % e.size
    let (first, st) ← unrolledLoopG e inv n first st
    let simdLast ← subPtr e last e.size
    let (_, st) ← whileLoop
      (fun first => if e.pol.assumeMatchingSize then decide (first ≠ last) else decide (first ≤ simdLast))
      e.size (fun first => inv e.size (useAligned e) 1 first) (n + 1) first st
    if !e.pol.assumeMatchingSize && decide (e.size > 1) then
      if leftover ≠ 0 then epilogueG e inv e.size leftover last (useAligned e) st else .ok st
    else .ok st

end Vir.ForEach
