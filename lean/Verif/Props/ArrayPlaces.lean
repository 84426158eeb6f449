import Verif.Lemmas.ArrayPlaces
import Verif.Lemmas.CallCount
import Verif.Props.ArrayAlgorithms

/-!
# C109: the exact effect of `vir::transform` on arrays of structs

The specification is in `Verif/Spec/ArrayPlaces.lean`.
-/

namespace Vir
open Spec ForEach Transform TransformArrays Simdize

variable {α : Type} {zero : α} {junk : Nat → α} {A : AEnv} {arrays : List (List α)}

/-- **C109.** Whether loads keep the order of the structs or not, `transform` with an operation that acts lane by lane goes through some
disjoint blocks of eight elements and permutes unordered inputs there and nowhere else. If the algorithm has no reason to process single
elements first, the blocks are those of `EightAt`; else they are determined by the number of elements before the first aligned address. -/
theorem transformArrays_places (ok : ArraysOk A arrays) (wf : A.e.WF) (hce : A.e.constEval = false) (hpt : A.e.strictPtr = false)
    (hf : A.e.Fits A.n) (hr : ReachesAlignment A.e A.n) (ha : A.e.pol.assumeMatchingSize = true → A.e.size ∣ A.n)
    (op : VecOp (List α) (List α)) (g : List (List α) → List α) (hop : LaneWise op g)
    (hres : ∀ at' : Range → Nat, (∀ I, at' I < A.n) → (g (A.ins.map fun I => structAt (contents arrays I) I.c (at' I))).length = A.out.c) :
    ∃ eights arrays', transformA zero junk A op arrays = .ok ((A.n : Int), arrays') ∧ EightsOk A.n eights ∧
      WrittenPlaces A arrays g eights arrays' ∧ (StartsAligned A.e → ∀ b, eights b ↔ EightAt A.e.size A.n b) ∧
      ∃ p ≤ A.n, LeadIn A.e p ∧ (A.n ≠ 0 → AsksAligned A.e → A.e.al A.e.size ∣ A.e.addr + p * A.e.sz) ∧ ∀ b, eights b ↔ EightFrom A.e.size A.n p b := by
  classical
  have hp := (reaches_iff wf).1 hr
  generalize hps : startsOf 0 (groupWidths (groupsOf A.e A.n)) = ps
  have hbound : ∀ x ∈ ps, x.1 + x.2 ≤ A.n := by
    intro x hx
    rw [← hps] at hx
    have := (mem_startsOf_bounds hx).2.1
    rw [groupWidths_sum, groupsOf_span hp] at this
    omega
  have hdis : ∀ x ∈ ps, ∀ y ∈ ps, x = y ∨ x.1 + x.2 ≤ y.1 ∨ y.1 + y.2 ≤ x.1 := by
    intro x hx y hy
    rw [← hps] at hx hy
    exact startsOf_disjoint hx hy
  let E : Nat → Prop := fun b => (b, 8) ∈ ps
  -- what ends up in an element at `b + j`, if a block of eight begins at `b`
  let inEight : Nat → Nat → List α := fun b j =>
    g (A.ins.map fun I => structAt (contents arrays I) I.c (b + if Unordered (I.F.env 8) then 3 * j % 8 else j))
  let res : Nat → List α := fun i =>
    if h : ∃ b, E b ∧ b ≤ i ∧ i < b + 8 then inEight h.choose (i - h.choose) else resultAt A arrays g i
  have res_in : ∀ b j, E b → j < 8 → res (b + j) = inEight b j := by
    intro b j hb hj
    have h : ∃ c, E c ∧ c ≤ b + j ∧ b + j < c + 8 := ⟨b, hb, by omega, by omega⟩
    have hc := h.choose_spec
    have heq : h.choose = b := by
      rcases hdis _ hc.1 _ hb with h1 | h1 | h1
      · exact congrArg Prod.fst h1
      · simp only at h1; omega
      · simp only at h1; omega
    simp only [res, dif_pos h, heq, Nat.add_sub_cancel_left]
  have res_out : ∀ i, (∀ b, E b → i < b ∨ b + 8 ≤ i) → res i = resultAt A arrays g i := by
    intro i h
    have : ¬ ∃ b, E b ∧ b ≤ i ∧ i < b + 8 := by
      rintro ⟨b, hb, h1, h2⟩
      have := h b hb
      omega
    simp only [res, dif_neg this]
  have hcompat : ∀ x ∈ ps, Compat A arrays g res x.1 x.2 := by
    rintro ⟨q, w⟩ hx i hi
    simp only at hi ⊢
    by_cases h8 : w = 8
    · subst h8
      rw [res_in q i hx hi]
      rfl
    · rw [res_out (q + i) ?_]
      · unfold resultAt
        congr 1
        apply List.map_congr_left
        intro I hI
        have hF := ok.wf I (by simp [hI])
        have : ¬ Unordered (I.F.env w) := fun hu => h8 (by rw [← hF.width w]; exact hu.2.2.2.2.1)
        rw [laneSrc, if_neg this]
      · intro b hb
        rcases hdis _ hx _ hb with h1 | h1 | h1
        · exact absurd (congrArg Prod.snd h1) h8
        · simp only at h1; omega
        · simp only at h1; omega
  have hlen : ∀ i < A.n, (res i).length = A.out.c := by
    intro i hi
    by_cases h : ∃ b, E b ∧ b ≤ i ∧ i < b + 8
    · obtain ⟨b, hb, h1, h2⟩ := h
      have hbn : b + 8 ≤ A.n := hbound _ hb
      rw [show i = b + (i - b) by omega, res_in b (i - b) hb (by omega)]
      exact hres (fun I => b + if Unordered (I.F.env 8) then 3 * (i - b) % 8 else (i - b)) fun I => by split <;> omega
    · rw [res_out i fun b hb => by
        by_cases h1 : i < b
        · exact .inl h1
        · exact .inr (Nat.le_of_not_lt fun h2 => h ⟨b, hb, by omega, h2⟩)]
      exact hres (fun _ => i) fun _ => hi
  obtain ⟨st, h1, h2⟩ := groups_as (zero := zero) (junk := junk) ok hlen hop (groupsOf A.e A.n) (fun G hG => (groupsOf_widths wf G hG).1) 0
    arrays (as_zero ok) (by rw [hps]; exact hcompat) (groupsOf_aligned wf hp) (by rw [groupsOf_span hp]; omega)
  rw [groupsOf_span hp, Nat.zero_add] at h2
  have hE (b : Nat) : E b ↔ EightFrom A.e.size A.n (if A.n = 0 then 0 else proCount A.e A.n) b := by
    show (b, 8) ∈ ps ↔ _
    rw [← hps]
    by_cases h0 : A.n = 0
    · rw [if_pos h0, h0]
      simp [groupsOf, groupWidths, startsOf, EightFrom, EightAt]
    · rw [if_neg h0, groupWidths_groupsOf wf.size_pos h0]
      exact eight_mem_startsOf_pro wf.size_pos
  refine ⟨E, st, ?_, ⟨fun b hb => hbound _ hb, fun b b' hb hb' hlt => ?_⟩, ⟨h2.len, h2.other, ?_⟩, ?_, ?_⟩
  · unfold transformA
    rw [transformG_trace (t := ⟨A.e, [], 0, A.n⟩) wf hce hf hp (by simp [hpt]) ha]
    simp only [h1, Outcome.bind_ok]
  · rcases hdis _ hb _ hb' with h | h | h
    · have := congrArg Prod.fst h
      simp only at this; omega
    · exact h
    · simp only at h; omega
  · obtain ⟨mem, mem', e1, e2, e3, e4, e5⟩ := h2.out
    refine ⟨mem, mem', e1, e2, e3, fun b j hb hj => ?_, fun i hi hout => ?_, e5⟩
    · have hbn : b + 8 ≤ A.n := hbound _ hb
      rw [e4 _ (by omega), res_in b j hb hj]
    · rw [e4 i hi, res_out i hout]
  · intro hst b
    have h0 := startsAligned_proCount hst A.n
    rw [hE b]
    simp [EightFrom, h0]
  · by_cases h0 : A.n = 0
    · exact ⟨0, by omega, .inl rfl, fun h => absurd h0 h, fun b => by rw [hE b, if_pos h0]⟩
    · refine ⟨proCount A.e A.n, by omega, proCount_leadIn wf _, fun _ h => (proCount_aligned wf _ ?_).2, fun b => by rw [hE b, if_neg h0]⟩
      rw [useAligned, h.1, (prologuePossible_iff _).2 h.2]; rfl

/-! ## The theorem applied to concrete data -/

private theorem sumEnv_wf (size : Nat) (n : Nat) (h : size = 8 ∨ size = 16) : (sumEnv size n).e.WF := by
  rcases h with rfl | rfl
  · exact libstdcxx_wf _ (show 0 < 8 by decide) ⟨2, rfl⟩ rfl (show 4 ∣ 0x1004 by decide) ⟨[], rfl⟩ (show stdBitCeil (8 * 4) ≤ 4000 by decide)
  · exact libstdcxx_wf _ (show 0 < 16 by decide) ⟨2, rfl⟩ rfl (show 4 ∣ 0x1004 by decide) ⟨[], rfl⟩ (show stdBitCeil (16 * 4) ≤ 4000 by decide)

/-- Points and numbers on AVX (eight lanes): for all numbers of elements, exactly the complete blocks of eight are affected; the points are
permuted, the numbers that are added to their sums are not. -/
example (n : Nat) (hn : n * 4 < 2 ^ 64) (a b : List Nat) (ha : n * 3 ≤ a.length) (hb : n ≤ b.length) :
    ∃ arrays', transformA 0 (fun _ => 0) (sumEnv 8 n) sumMembers [a, b] = .ok ((n : Int), arrays') ∧
      WrittenPlaces (sumEnv 8 n) [a, b] (fun xs => [xs.flatten.sum]) (EightAt 8 n) arrays' := by
  obtain ⟨E, arrays', h1, _, h2, h3, _⟩ := transformArrays_places (zero := 0) (junk := fun _ => 0) (sumEnv_ok 8 n ha hb) (sumEnv_wf 8 n (.inl rfl)) rfl
    rfl hn (fun h => absurd h (by simp [sumEnv, Policy.prefersAligned])) (fun h => absurd h (by simp [sumEnv, Policy.assumeMatchingSize])) _ _
    sumMembers_laneWise fun _ _ => rfl
  have : E = EightAt 8 n := funext fun b => propext (h3 (.inr ⟨rfl, rfl⟩) b)
  exact ⟨arrays', h1, this ▸ h2⟩

/-- Nine elements: the block from 0 on, and the element after it. -/
example : EightAt 8 9 0 ∧ ¬ EightAt 8 9 8 ∧ Unordered (ForEachStruct.pointFamily.env 8) ∧ ¬ Unordered (scalarFamily.env 8) := by
  unfold EightAt Unordered; decide

/-- `prefer_aligned`, sixteen lanes, output 4 bytes after an aligned address. -/
private def shifted (n : Nat) : AEnv := { sumEnv 16 n with e := { (sumEnv 16 n).e with pol := ⟨[.preferAligned]⟩ } }

private theorem shifted_aligned (k : Nat) : (shifted 0).e.al 16 ∣ (shifted 0).e.addr + k * 4 ↔ k % 16 = 15 := by
  have h1 : (shifted 0).e.al 16 = 64 := by decide
  have h2 : (shifted 0).e.addr = 0x1004 := rfl
  rw [h1, h2]; omega

/-- Fifteen elements come first: 1 + 2 + 4 + 8. The last eight of them are permuted, and there may be another block at the end. -/
example (n : Nat) (h15 : 15 ≤ n) (hn : n * 4 < 2 ^ 64) (a b : List Nat) (ha : n * 3 ≤ a.length) (hb : n ≤ b.length) :
    ∃ arrays', transformA 0 (fun _ => 0) (shifted n) sumMembers [a, b] = .ok ((n : Int), arrays') ∧
      WrittenPlaces (shifted n) [a, b] (fun xs => [xs.flatten.sum]) (EightFrom 16 n 15) arrays' ∧ EightFrom 16 n 15 7 := by
  have wf : (shifted n).e.WF := libstdcxx_wf _ (show 0 < 16 by decide) ⟨2, rfl⟩ rfl (show 4 ∣ 0x1004 by decide) ⟨[.preferAligned], rfl⟩
    (show stdBitCeil (16 * 4) ≤ 4000 by decide)
  have ok := sumEnv_ok 16 n ha hb
  have ask : AsksAligned (shifted n).e := 
    ⟨rfl, (by decide : 1 < 16), (by decide : stdBitCeil (16 * 4) ∣ 16 * 4), (by decide : 4 < stdBitCeil (16 * 4))⟩
  obtain ⟨E, arrays', h1, _, h2, _, p, hp, h3, h4, h5⟩ := transformArrays_places (A := shifted n) (zero := 0) (junk := fun _ => 0)
    ⟨ok.1, ok.2, ok.3, ok.4⟩ wf rfl rfl hn (fun _ _ _ _ => .inr ⟨15, h15, (shifted_aligned 15).2 rfl⟩)
    (fun h => absurd h (by simp [shifted, Policy.assumeMatchingSize])) _ _ sumMembers_laneWise fun _ _ => rfl
  have hp15 : p = 15 := by
    have h6 := (shifted_aligned p).1 (h4 (show n ≠ 0 by omega) ask)
    rcases h3 with rfl | ⟨h7, _⟩
    · omega
    · have : p < 16 := h7
      omega
  subst hp15
  have : E = EightFrom 16 n 15 := funext fun b => propext (h5 b)
  exact ⟨arrays', h1, this ▸ h2, .inl ⟨by decide, rfl⟩⟩

end Vir
