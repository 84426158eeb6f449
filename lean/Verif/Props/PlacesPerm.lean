import Verif.Props.ArrayPlaces

/-!
# C109: one input

If all loads permute alike, in particular with a single input, the results of `transform` are right but for their order.
-/

namespace Vir
open Spec ForEach Transform TransformArrays Simdize

variable {α : Type} {zero : α} {junk : Nat → α} {A : AEnv} {arrays : List (List α)}

/-- A function that is its own inverse permutes the positions. -/
private theorem perm_of_involution {n : Nat} {f : Nat → Nat} (hlt : ∀ i < n, f i < n) (hinv : ∀ i < n, f (f i) = i) :
    ((List.range n).map f).Perm (List.range n) := by
  refine (List.perm_ext_iff_of_nodup ?_ List.nodup_range).2 fun j => ?_
  · rw [List.Nodup, List.pairwise_map]
    refine List.Pairwise.imp_of_mem ?_ (List.nodup_range (n := n))
    intro a b ha hb hab h
    have h1 := hinv a (List.mem_range.1 ha)
    rw [h, hinv b (List.mem_range.1 hb)] at h1
    exact hab h1.symm
  · rw [List.mem_map, List.mem_range]
    constructor
    · rintro ⟨i, hi, rfl⟩
      exact hlt i (List.mem_range.1 hi)
    · intro hj
      exact ⟨f j, List.mem_range.2 (hlt j hj), hinv j hj⟩

/-- **C109 (loads that permute alike).** If the loads of all inputs permute the lanes in the same way, in particular if there is only one
input, the first `n` elements of the output are a permutation of the right results, and nothing else changes. -/
theorem transformArrays_perm (ok : ArraysOk A arrays) (hu : UniformOrder A.e A.ins) (wf : A.e.WF) (hce : A.e.constEval = false)
    (hpt : A.e.strictPtr = false) (hf : A.e.Fits A.n) (hr : ReachesAlignment A.e A.n)
    (ha : A.e.pol.assumeMatchingSize = true → A.e.size ∣ A.n) (op : VecOp (List α) (List α)) (g : List (List α) → List α)
    (hop : LaneWise op g)
    (hres : ∀ at' : Range → Nat, (∀ I, at' I < A.n) → (g (A.ins.map fun I => structAt (contents arrays I) I.c (at' I))).length = A.out.c) :
    ∃ arrays' mem mem', transformA zero junk A op arrays = .ok ((A.n : Int), arrays') ∧ arrays'.length = arrays.length ∧
      (∀ k, k ≠ A.out.arr → arrays'[k]? = arrays[k]?) ∧ arrays[A.out.arr]? = some mem ∧ arrays'[A.out.arr]? = some mem' ∧
      mem'.length = mem.length ∧ ((List.range A.n).map (structAt mem' A.out.c)).Perm ((List.range A.n).map (resultAt A arrays g)) ∧
      ∀ j, A.n * A.out.c ≤ j → mem'[j]? = mem[j]? := by
  classical
  by_cases h8 : 8 ≤ A.e.size ∧ ∃ I ∈ A.ins, Unordered (I.F.env 8)
  · obtain ⟨hs8, I0, hI0, hu0⟩ := h8
    obtain ⟨E, arrays', h1, h2, h3, _⟩ := transformArrays_places (zero := zero) (junk := junk) ok wf hce hpt hf hr ha op g hop hres
    obtain ⟨mem, mem', e1, e2, e3, e4, e5, e6⟩ := h3.out
    refine ⟨arrays', mem, mem', h1, h3.len, h3.other, e1, e2, e3, ?_, e6⟩
    have hall : ∀ I ∈ A.ins, Unordered (I.F.env 8) := fun I hI => (hu 8 (by omega) hs8 I hI I0 hI0).2 hu0
    let f : Nat → Nat := fun i => if h : ∃ b, E b ∧ b ≤ i ∧ i < b + 8 then h.choose + 3 * (i - h.choose) % 8 else i
    have f_in : ∀ b j, E b → j < 8 → f (b + j) = b + 3 * j % 8 := by
      intro b j hb hj
      have h : ∃ c, E c ∧ c ≤ b + j ∧ b + j < c + 8 := ⟨b, hb, by omega, by omega⟩
      have hc := h.choose_spec
      have heq : h.choose = b := by
        rcases Nat.lt_trichotomy h.choose b with h4 | h4 | h4
        · have := h2.2 _ _ hc.1 hb h4; omega
        · exact h4
        · have := h2.2 _ _ hb hc.1 h4; omega
      simp only [f, dif_pos h, heq, Nat.add_sub_cancel_left]
    have f_out : ∀ i, (¬ ∃ b, E b ∧ b ≤ i ∧ i < b + 8) → f i = i := fun i h => by simp only [f, dif_neg h]
    have hperm := perm_of_involution (n := A.n) (f := f) (fun i hi => by
      by_cases h : ∃ b, E b ∧ b ≤ i ∧ i < b + 8
      · obtain ⟨b, hb, h4, h5⟩ := h
        have := h2.1 b hb
        have h6 := f_in b (i - b) hb (by omega)
        rw [show b + (i - b) = i by omega] at h6
        omega
      · rw [f_out i h]; exact hi) (fun i hi => by
      by_cases h : ∃ b, E b ∧ b ≤ i ∧ i < b + 8
      · obtain ⟨b, hb, h4, h5⟩ := h
        have h6 := f_in b (i - b) hb (by omega)
        rw [show b + (i - b) = i by omega] at h6
        rw [h6, f_in b _ hb (by omega)]
        omega
      · rw [f_out i h, f_out i h])
    have hmap : (List.range A.n).map (structAt mem' A.out.c) = ((List.range A.n).map f).map (resultAt A arrays g) := by
      rw [List.map_map]
      apply List.map_congr_left
      intro i hi
      have hi := List.mem_range.1 hi
      by_cases h : ∃ b, E b ∧ b ≤ i ∧ i < b + 8
      · obtain ⟨b, hb, h4, h5⟩ := h
        obtain ⟨j, rfl⟩ : ∃ j, i = b + j := ⟨i - b, by omega⟩
        rw [e4 b j hb (by omega), Function.comp, f_in b j hb (by omega)]
        unfold resultAt
        congr 1
        apply List.map_congr_left
        intro I hI
        rw [if_pos (hall I hI)]
      · rw [Function.comp, f_out i h]
        exact e5 i hi fun b hb => by
          by_cases h4 : i < b
          · exact .inl h4
          · exact .inr (Nat.le_of_not_lt fun h5 => h ⟨b, hb, by omega, h5⟩)
    rw [hmap]
    exact hperm.map _
  · have ho : OrderedInputs A := by
      intro I hI w hw hW hun
      have hF := ok.wf I (by simp [hI])
      have : w = 8 := by rw [← hF.width w]; exact hun.2.2.2.2.1
      subst this
      exact h8 ⟨hW, I, hI, hun⟩
    obtain ⟨arrays', h1, h2⟩ := transformArrays_partial (zero := zero) (junk := junk) ok ho wf hce hpt hf hr ha op g hop
      fun i hi => hres (fun _ => i) fun _ => hi
    obtain ⟨mem, mem', e1, e2, e3, e4, e5⟩ := h2.out
    refine ⟨arrays', mem, mem', h1, h2.len, h2.other, e1, e2, e3, ?_, e5⟩
    rw [List.map_congr_left fun i hi => e4 i (List.mem_range.1 hi)]

/-! ## The theorem applied to concrete data -/

/-- From points (array 0) to numbers (array 1), eight lanes. -/
private def onlyPoints (n : Nat) : AEnv := { sumEnv 8 n with ins := [⟨0, 3, ForEachStruct.pointFamily⟩] }

private theorem onlyPoints_ok (n : Nat) {a b : List Nat} (ha : n * 3 ≤ a.length) (hb : n ≤ b.length) : ArraysOk (onlyPoints n) [a, b] := by
  have ok := sumEnv_ok 8 n ha hb
  refine ⟨by simp [onlyPoints], fun I hI => ok.wf I ?_, fun I hI => ok.mem I ?_, fun I hI => ok.same I ?_⟩ <;>
    simp only [onlyPoints, sumEnv, List.mem_cons, List.not_mem_nil, or_false] at hI ⊢ <;> tauto

example (n : Nat) (hn : n * 4 < 2 ^ 64) (a b : List Nat) (ha : n * 3 ≤ a.length) (hb : n ≤ b.length) :=
  transformArrays_perm (A := onlyPoints n) (zero := 0) (junk := fun _ => 0) (onlyPoints_ok n ha hb)
    (fun w _ _ I hI J hJ => by
      simp only [onlyPoints, List.mem_cons, List.not_mem_nil, or_false] at hI hJ
      rw [hI, hJ])
    (libstdcxx_wf _ (show 0 < 8 by decide) ⟨2, rfl⟩ rfl (show 4 ∣ 0x1004 by decide) ⟨[], rfl⟩ (show stdBitCeil (8 * 4) ≤ 4000 by decide))
    rfl rfl hn (fun h => absurd h (by simp [onlyPoints, sumEnv, Policy.prefersAligned]))
    (fun h => absurd h (by simp [onlyPoints, sumEnv, Policy.assumeMatchingSize])) _ _ sumMembers_laneWise fun _ _ => rfl

end Vir
