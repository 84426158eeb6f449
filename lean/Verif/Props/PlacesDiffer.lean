import Verif.Props.ArrayPlaces
import Verif.Props.ReducePlaces

/-!
# C109, C110: with unordered loads the execution policy and the address change the results

`for_each` does not have this problem (C108): a simdized struct needs the alignment of the struct only, so there is no prologue. Here the
policy looks at the alignment of an array of numbers: the output of `transform`, the first input of `transform_reduce`.
-/

namespace Vir
open Spec ForEach TransformArrays Simdize

private def aligned8 (n : Nat) : AEnv := { sumEnv 8 n with e := { (sumEnv 8 n).e with pol := ⟨[.preferAligned]⟩ } }

private theorem aligned8_wf (n : Nat) : (aligned8 n).e.WF :=
  libstdcxx_wf _ (show 0 < 8 by decide) ⟨2, rfl⟩ rfl (show 4 ∣ 0x1004 by decide) ⟨[.preferAligned], rfl⟩
    (show stdBitCeil (8 * 4) ≤ 4000 by decide)

/-- **C109 (policies differ).** The same call of `transform` with a lane-wise operation on the same arrays, once with the default policy and
once with `prefer_aligned`, has different results: points and numbers on AVX. -/
theorem transformArrays_policy_matters : ∃ (A A' : AEnv) (arrays : List (List Nat)) (r r' : List (List Nat)),
    A' = { A with e := { A.e with pol := ⟨[.preferAligned]⟩ } } ∧ A.e.pol = ⟨[]⟩ ∧ A.e.WF ∧ A'.e.WF ∧ ArraysOk A arrays ∧ ArraysOk A' arrays ∧
    LaneWise sumMembers (fun xs => [xs.flatten.sum]) ∧ ReachesAlignment A'.e A'.n ∧
    transformA 0 (fun _ => 0) A sumMembers arrays = .ok ((A.n : Int), r) ∧
    transformA 0 (fun _ => 0) A' sumMembers arrays = .ok ((A'.n : Int), r') ∧ r ≠ r' := by
  have ok := sumEnv_ok 8 15 (a := List.range 45) (b := List.replicate 15 0) (by decide) (by decide)
  refine ⟨sumEnv 8 15, aligned8 15, [List.range 45, List.replicate 15 0],
    [List.range 45, [3, 30, 57, 12, 39, 66, 21, 48, 75, 84, 93, 102, 111, 120, 129]],
    [List.range 45, [3, 12, 21, 30, 39, 48, 57, 66, 93, 120, 75, 102, 129, 84, 111]], rfl, rfl, ?_, aligned8_wf 15, ok,
    ⟨ok.1, ok.2, ok.3, ok.4⟩, sumMembers_laneWise, fun _ _ _ _ => .inr ⟨7, (by decide : 7 ≤ 15), (by decide : stdBitCeil (8 * 4) ∣ 0x1004 + 7 * 4)⟩,
    by decide +kernel, by decide +kernel, by decide⟩
  exact libstdcxx_wf _ (show 0 < 8 by decide) ⟨2, rfl⟩ rfl (show 4 ∣ 0x1004 by decide) ⟨[], rfl⟩ (show stdBitCeil (8 * 4) ≤ 4000 by decide)

/-- **C110 (addresses differ).** The same `transform_reduce` with an associative and commutative operation on arrays with the same contents,
once at an aligned address and once not, has different values: points and numbers on AVX, `prefer_aligned`. -/
theorem transformReduceArrays_address_matters : ∃ (e : Env) (addr' : Nat) (arrays : List (List Nat)) (v v' : Nat),
    e.WF ∧ { e with addr := addr' }.WF ∧ InputArraysOk [weightsIn, pointsIn] 15 arrays ∧
    transformReduceA 0 (fun _ => 0) e [weightsIn, pointsIn] 15 (pureOps (σ := Unit) weighOp (· + ·) id List.sum List.sum) arrays 0 () =
      .ok ((), some v) ∧
    transformReduceA 0 (fun _ => 0) { e with addr := addr' } [weightsIn, pointsIn] 15
      (pureOps (σ := Unit) weighOp (· + ·) id List.sum List.sum) arrays 0 () = .ok ((), some v') ∧ v ≠ v' := by
  refine ⟨{ dotEnv 8 false with pol := ⟨[.preferAligned]⟩, addr := 0x1000 }, 0x1004, [List.range 45, (List.range 15).map fun i => i * i], 32499, 31491, ?_, ?_, ?_,
    by decide +kernel, by decide +kernel, by decide⟩
  · exact libstdcxx_wf _ (show 0 < 8 by decide) ⟨2, rfl⟩ rfl (show 4 ∣ 0x1000 by decide) ⟨[.preferAligned], rfl⟩
      (show stdBitCeil (8 * 4) ≤ 4000 by decide)
  · exact libstdcxx_wf _ (show 0 < 8 by decide) ⟨2, rfl⟩ rfl (show 4 ∣ 0x1004 by decide) ⟨[.preferAligned], rfl⟩
      (show stdBitCeil (8 * 4) ≤ 4000 by decide)
  · have ok := weighted_ok 15 (a := List.range 45) (b := (List.range 15).map fun i => i * i) (by decide) (by decide)
    refine ⟨by simp, fun I hI => ok.wf I (by simp at hI ⊢; tauto), fun I hI => ok.mem I (by simp at hI ⊢; tauto)⟩

end Vir
