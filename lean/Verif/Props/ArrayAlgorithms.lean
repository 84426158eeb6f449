import Verif.Lemmas.ArrayAlgorithms
import Verif.Props.ForEachStruct
import Verif.Props.Transform

/-!
# C71: `vir::transform` on arrays of structs and on ranges with different element types

The specification is in `Verif/Spec/ArrayAlgorithms.lean`.
-/

namespace Vir
open Spec ForEach Transform TransformArrays Simdize

variable {α : Type} {zero : α} {junk : Nat → α} {A : AEnv} {arrays : List (List α)}

/-- **C71** (partial: loads must keep the order of the structs, see `transformArrays_wrong`). With an operation that acts lane by lane,
`transform` makes element `i` of the output the result for the elements `i` of the inputs before the call, whatever the element types
of the ranges are; nothing else changes, and the end of the output range is returned. An input may be the output array itself. -/
theorem transformArrays_partial (ok : ArraysOk A arrays) (ho : OrderedInputs A) (wf : A.e.WF) (hce : A.e.constEval = false)
    (hpt : A.e.strictPtr = false) (hf : A.e.Fits A.n) (hr : ReachesAlignment A.e A.n)
    (ha : A.e.pol.assumeMatchingSize = true → A.e.size ∣ A.n) (op : VecOp (List α) (List α)) (g : List (List α) → List α)
    (hop : LaneWise op g) (hres : ∀ i < A.n, (resultAt A arrays g i).length = A.out.c) :
    ∃ arrays', transformA zero junk A op arrays = .ok ((A.n : Int), arrays') ∧ Written A arrays g A.n arrays' := by
  have hp := (reaches_iff wf).1 hr
  obtain ⟨st, h1, h2⟩ := groups_upto (zero := zero) (junk := junk) ok hres hop ho (groupsOf A.e A.n) (groupsOf_widths wf) 0 arrays
    (upto_zero ok) (groupsOf_aligned wf hp) (by rw [groupsOf_span hp]; omega)
  rw [groupsOf_span hp, Nat.zero_add] at h2
  refine ⟨st, ?_, h2⟩
  unfold transformA
  rw [transformG_trace (t := ⟨A.e, [], 0, A.n⟩) wf hce hf hp (by simp [hpt]) ha]
  simp only [h1, Outcome.bind_ok]

/-- **C71 (constant evaluation)** (partial). The same during constant evaluation, for every policy and address. -/
theorem transformArrays_const_partial (ok : ArraysOk A arrays) (ho : OrderedInputs A) (hs : 0 < A.e.size) (hce : A.e.constEval = true)
    (hpt : A.e.strictPtr = false) (ha : A.e.pol.assumeMatchingSize = true → A.e.size ∣ A.n) (op : VecOp (List α) (List α))
    (g : List (List α) → List α) (hop : LaneWise op g) (hres : ∀ i < A.n, (resultAt A arrays g i).length = A.out.c) :
    ∃ arrays', transformA zero junk A op arrays = .ok ((A.n : Int), arrays') ∧ Written A arrays g A.n arrays' := by
  obtain ⟨st, h1, h2⟩ := groups_upto (zero := zero) (junk := junk) ok hres hop ho (constGroupsOf A.e A.n)
    (fun G hG => ⟨(constGroupsOf_widths hs G hG).1, (constGroupsOf_widths hs G hG).2.1⟩) 0 arrays
    (upto_zero ok) (groupsAligned_false (fun G hG => (constGroupsOf_widths hs G hG).2.2) 0) (by rw [constGroupsOf_span]; omega)
  rw [constGroupsOf_span, Nat.zero_add] at h2
  refine ⟨st, ?_, h2⟩
  unfold transformA
  rw [transformG_const (t := ⟨A.e, [], 0, A.n⟩) hs hce (by simp [hpt]) ha]
  simp only [h1, Outcome.bind_ok]

/-- **C71 (uniqueness).** `Written` determines the arrays after the call completely. -/
theorem written_unique {g : List (List α) → List α} {p : Nat} {x y : List (List α)} (hc : 0 < A.out.c) (hx : Written A arrays g p x)
    (hy : Written A arrays g p y) : x = y := by
  apply List.ext_getElem?
  intro k
  by_cases hk : k = A.out.arr
  · subst hk
    obtain ⟨m1, m2, a1, a2, a3, a4, a5⟩ := hx.out
    obtain ⟨m3, m4, b1, b2, b3, b4, b5⟩ := hy.out
    rw [a1] at b1
    cases b1
    rw [a2, b2]
    congr 1
    apply List.ext_getElem?
    intro j
    by_cases hj : p * A.out.c ≤ j
    · rw [a5 j hj, b5 j hj]
    · have h1 : j / A.out.c < p := (Nat.div_lt_iff_lt_mul hc).2 (by omega)
      have h2 := congrArg (·[j % A.out.c]?) ((a4 _ h1).trans (b4 _ h1).symm)
      have h3 := Nat.mod_lt j hc
      have h4 := Nat.div_add_mod j A.out.c
      rw [Nat.mul_comm] at h4
      simpa [structAt, List.getElem?_take, h3, List.getElem?_drop, h4] using h2
  · rw [hx.other k hk, hy.other k hk]

/-! ### The hypotheses are met -/

/-- Scalars: one member. -/
def scalarFamily : ForEachStruct.Family where
  env w := { f3x8 with n := w, count := 1, float3 := false, sameTuple := false }
  perm _ := pf8

theorem scalarFamily_wf : scalarFamily.WF 1 :=
  ⟨by omega, fun _ => rfl, fun _ => rfl, fun w hw => ⟨hw, (by decide : 0 < 1), fun h => (by cases h), fun h => (by cases h), fun _ => rfl⟩⟩

/-- Adds the members of the struct in every lane. -/
def sumMembers : VecOp (List Nat) (List Nat) where
  call args := (List.range ((args.getD 0 []).length)).map fun i => [((args.filterMap (·[i]?)).flatten).sum]
  shape w args hne h := by
    cases args with
    | nil => exact absurd rfl hne
    | cons a args => simp [h a (by simp)]

theorem sumMembers_laneWise : LaneWise sumMembers fun xs => [xs.flatten.sum] := by
  intro w args hne h
  cases args with
  | nil => exact absurd rfl hne
  | cons a args => simp [sumMembers, h a (by simp)]

/-- From points (array 0) and numbers (array 1) to numbers (array 1): `size` lanes, output aligned to the element only. -/
def sumEnv (size n : Nat) : AEnv where
  e := { size := size, sz := 4, al := fun w => stdBitCeil (w * 4), pol := ⟨[]⟩, addr := 0x1004 }
  ins := [⟨0, 3, ForEachStruct.pointFamily⟩, ⟨1, 1, scalarFamily⟩]
  out := ⟨1, 1, scalarFamily⟩
  n := n

theorem sumEnv_ok (size n : Nat) {a b : List Nat} (ha : n * 3 ≤ a.length) (hb : n ≤ b.length) : ArraysOk (sumEnv size n) [a, b] := by
  refine ⟨by simp [sumEnv], ?_, ?_, ?_⟩
  · intro I hI
    simp only [sumEnv, List.mem_cons, List.not_mem_nil, or_false] at hI
    rcases hI with rfl | rfl | rfl
    · exact scalarFamily_wf
    · exact ForEachStruct.pointFamily_wf
    · exact scalarFamily_wf
  · intro I hI
    simp only [sumEnv, List.mem_cons, List.not_mem_nil, or_false] at hI
    rcases hI with rfl | rfl | rfl
    · exact ⟨b, rfl, by simpa [sumEnv] using hb⟩
    · exact ⟨a, rfl, by simpa [sumEnv] using ha⟩
    · exact ⟨b, rfl, by simpa [sumEnv] using hb⟩
  · intro I hI
    simp only [sumEnv, List.mem_cons, List.not_mem_nil, or_false] at hI
    rcases hI with rfl | rfl
    · intro h; cases h
    · intro _; rfl

/-- On SSE (four lanes): the sum of the coordinates of every point and the number at its position, for all points and numbers. -/
example (n : Nat) (hn : n * 4 < 2 ^ 64) (a b : List Nat) (ha : n * 3 ≤ a.length) (hb : n ≤ b.length) :
    ∃ arrays', transformA 0 (fun _ => 0) (sumEnv 4 n) sumMembers [a, b] = .ok ((n : Int), arrays') ∧
      Written (sumEnv 4 n) [a, b] (fun xs => [xs.flatten.sum]) n arrays' := by
  have wf : (sumEnv 4 n).e.WF := libstdcxx_wf _ (show 0 < 4 by decide) ⟨2, rfl⟩ rfl (show 4 ∣ 0x1004 by decide) ⟨[], rfl⟩
    (show stdBitCeil (4 * 4) ≤ 4000 by decide)
  refine transformArrays_partial (sumEnv_ok 4 n ha hb) ?_ wf rfl rfl hn ?_ ?_ _ _ sumMembers_laneWise fun _ _ => rfl
  · intro I hI w hw hW hu
    have h8 : w = 8 := by
      simp only [sumEnv, List.mem_cons, List.not_mem_nil, or_false] at hI
      rcases hI with rfl | rfl
      · exact hu.2.2.2.2.1
      · exact absurd hu.2.2.1 (by simp [scalarFamily])
    have : w ≤ 4 := hW
    omega
  · intro h
    exact absurd h (by simp [sumEnv, Policy.prefersAligned])
  · intro h
    exact absurd h (by simp [sumEnv, Policy.assumeMatchingSize])

/-- **C71** is false as stated for unordered loads: with three floats and eight lanes (AVX), the sum for point 3 ends up in element 1. -/
theorem transformArrays_wrong : ∃ (A : AEnv) (arrays arrays' : List (List Nat)) (op : VecOp (List Nat) (List Nat))
    (g : List (List Nat) → List Nat), ArraysOk A arrays ∧ LaneWise op g ∧
    transformA 0 (fun _ => 0) A op arrays = .ok ((A.n : Int), arrays') ∧ structAt (arrays'.getD 1 []) 1 1 ≠ resultAt A arrays g 1 :=
  ⟨sumEnv 8 9, [List.range 27, List.replicate 9 0], [List.range 27, [3, 30, 57, 12, 39, 66, 21, 48, 75]], sumMembers, _,
    sumEnv_ok 8 9 (by decide) (by decide), sumMembers_laneWise, by decide +kernel, by decide⟩

/-! ## The theorems applied to concrete data -/

private def sumConst : AEnv := { sumEnv 4 3 with e := { (sumEnv 4 3).e with constEval := true } }

private theorem sumConst_ok : ArraysOk sumConst [List.range 9, [10, 20, 30]] :=
  have ok := sumEnv_ok 4 3 (a := List.range 9) (b := [10, 20, 30]) (by decide) (by decide)
  ⟨ok.1, ok.2, ok.3, ok.4⟩

private theorem sumConst_ordered : OrderedInputs sumConst := by
  intro I hI w hw hW hu
  have h8 : w = 8 := by
    simp only [sumConst, sumEnv, List.mem_cons, List.not_mem_nil, or_false] at hI
    rcases hI with rfl | rfl
    · exact hu.2.2.2.2.1
    · exact absurd hu.2.2.1 (by simp [scalarFamily])
  have : w ≤ 4 := hW
  omega

example := transformArrays_const_partial (zero := 0) (junk := fun _ => 0) sumConst_ok sumConst_ordered (show 0 < 4 by decide) rfl rfl
  (fun h => absurd h (by simp [sumConst, sumEnv, Policy.assumeMatchingSize])) _ _ sumMembers_laneWise fun _ _ => rfl

end Vir
