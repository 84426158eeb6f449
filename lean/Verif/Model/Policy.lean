/-!
# Execution policies

Model of `/repo/vir/simd_execution.h` 358-509 (`simd_policy` and its option tags).
-/

namespace Vir

/-- The option tag types, `/repo/vir/simd_execution.h` 358-390. -/
inductive PolicyOption where
  | preferAligned        -- simd_policy_prefer_aligned_t (358)
  | autoPrologue         -- simd_policy_auto_prologue_t (360)
  | assumeMatchingSize   -- simd_policy_assume_matching_size_t (362)
  | unrollBy (n : Int)   -- simd_policy_unroll_by_t<N> (364-376)
  | size (n : Int)       -- simd_policy_size_t<N> (378-390)
deriving DecidableEq, Repr

/-- `simd_policy<Options...>`, `/repo/vir/simd_execution.h` 424-440: a pack of option types. -/
structure Policy where
  options : List PolicyOption
deriving DecidableEq, Repr

namespace Policy

/-- `vir::execution::simd`, `/repo/vir/simd_execution.h` 528. -/
def simd : Policy := ⟨[]⟩

/-- `_prefers_aligned`, `/repo/vir/simd_execution.h` 427-428: fold over `or` of `same_as`. -/
def prefersAligned (p : Policy) : Bool := p.options.foldl (fun a o => a || o == .preferAligned) false
/-- `_auto_prologue`, `/repo/vir/simd_execution.h` 430-431. -/
def autoPrologue (p : Policy) : Bool := p.options.foldl (fun a o => a || o == .autoPrologue) false
/-- `_assume_matching_size`, `/repo/vir/simd_execution.h` 433-434. -/
def assumeMatchingSize (p : Policy) : Bool :=
  p.options.foldl (fun a o => a || o == .assumeMatchingSize) false

/-- `simd_policy_unroll_value`, `/repo/vir/simd_execution.h` 368-376. -/
def unrollValue : PolicyOption → Int
  | .unrollBy n => n
  | _ => 0
/-- `simd_policy_size_value`, `/repo/vir/simd_execution.h` 382-390. -/
def sizeValue : PolicyOption → Int
  | .size n => n
  | _ => 0

/-- `_unroll_by`, `/repo/vir/simd_execution.h` 436-437: sum over all options. -/
def unrollBy (p : Policy) : Int := p.options.foldl (fun a o => a + unrollValue o) 0
/-- `_size`, `/repo/vir/simd_execution.h` 439-440: sum over all options. -/
def sizeOpt (p : Policy) : Int := p.options.foldl (fun a o => a + sizeValue o) 0

/-- A modifier call on a policy, `/repo/vir/simd_execution.h` 442-508. -/
inductive Modifier where
  | preferAligned
  | autoPrologue
  | assumeMatchingSize
  | unrollBy (n : Int)
  | preferSize (n : Int)
deriving DecidableEq, Repr

/-- One modifier call; `none` if the call is ill-formed (its `requires` clause or `static_assert` fails).
`prefer_aligned` `/repo/vir/simd_execution.h` 450-453, `auto_prologue` 461-464, `assume_matching_size` 473-476, `unroll_by` 490-496,
`prefer_size` 502-508. -/
def apply (p : Policy) : Modifier → Option Policy
  | .preferAligned =>
    if !p.prefersAligned && !p.autoPrologue && !p.assumeMatchingSize then
      some ⟨p.options ++ [.preferAligned]⟩ else none
  | .autoPrologue =>
    if !p.prefersAligned && !p.autoPrologue && !p.assumeMatchingSize then
      some ⟨p.options ++ [.autoPrologue]⟩ else none
  | .assumeMatchingSize =>
    if !p.prefersAligned && !p.autoPrologue && !p.assumeMatchingSize then
      some ⟨p.options ++ [.assumeMatchingSize]⟩ else none
  | .unrollBy n =>
    if p.unrollBy = 0 then (if n > 1 then some ⟨p.options ++ [.unrollBy n]⟩ else none) else none
  | .preferSize n =>
    if p.sizeOpt = 0 then (if n > 0 then some ⟨p.options ++ [.size n]⟩ else none) else none

/-- A chain of modifier calls `simd.m1().m2()...`. `/repo/vir/simd_execution.h` 442-508. -/
def applyAll (p : Policy) : List Modifier → Option Policy
  | [] => some p
  | m :: ms => (p.apply m).bind fun q => q.applyAll ms

end Policy
end Vir
