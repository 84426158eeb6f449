import Verif.Lemmas.StructPieces
import Verif.Spec.StructPieces
import Verif.Props.Relations

/-!
# C108: what `for_each` makes of an array of structs, exactly
-/

namespace Vir.ForEachStruct
open Vir.ForEach Vir.Spec Vir.Simdize

variable {σ α : Type} {c : Nat} {F : Family}

/-- **C108 (policy).** A callable that treats the simdized structs of an invocation separately: the array afterwards does not depend on the
execution policy or the address, also if the callable mixes the lanes of a simdized struct and if the loads permute them. -/
theorem forEachStruct_policy_irrelevant {e e' : Env} {A A' : Nat} (hE : StructRange e A) (hE' : StructRange e' A') (hs : e.size = e'.size)
    (hF : F.WF c) (hce : e.constEval = false) (hce' : e'.constEval = false) (hpt : e.strictPtr = false) (hpt' : e'.strictPtr = false)
    (zero : α) (junk junk' : Nat → α) (f : SCallable σ α c) (h : List (List α) → List (List α)) (hf : ∀ s vs, (f.call s vs).2 = vs.map h)
    (s : σ) (xs : List (Vector α c)) (hn : e.Fits xs.length) (hn' : e'.Fits xs.length)
    (ha : e.pol.assumeMatchingSize = true → e.size ∣ xs.length) (ha' : e'.pol.assumeMatchingSize = true → e'.size ∣ xs.length) :
    ∃ s1 s2 mem, forEach e F zero junk true f s (flat xs) = .ok (s1, mem) ∧ forEach e' F zero junk' true f s (flat xs) = .ok (s2, mem) := by
  obtain ⟨s1, h1⟩ := forEachStruct_pieces hE hF hce hpt zero junk f _ (onStructs_piece F zero f h hf) s xs hn ha
  obtain ⟨s2, h2⟩ := forEachStruct_pieces hE' hF hce' hpt' zero junk' f _ (onStructs_piece F zero f h hf) s xs hn' ha'
  rw [← hs] at h2
  exact ⟨s1, s2, _, h1, h2⟩

/-- **C108 (places).** Where the loads permute eight lanes (three floats), a callable that changes every struct with `g`: of the eight structs from `b`
on that are loaded together, number `3 j mod 8` ends up at place `j`; all structs that are not loaded in eights stay where they are. -/
theorem forEachStruct_places {e : Env} {A : Nat} (hE : StructRange e A) (hF : F.WF c) (hu : Unordered (F.env 8)) (hce : e.constEval = false)
    (hpt : e.strictPtr = false) (zero : α) (junk : Nat → α) (f : SCallable σ α c) (g : Vector α c → Vector α c)
    (hg : ∀ s (css : List (List (Vector α c))), (f.call s (css.map members)).2 = css.map fun cs => members (cs.map g)) (s : σ)
    (xs : List (Vector α c)) (hn : e.Fits xs.length) (ha : e.pol.assumeMatchingSize = true → e.size ∣ xs.length) :
    ∃ s' ys, forEach e F zero junk true f s (flat xs) = .ok (s', flat ys) ∧ ys.length = xs.length ∧
      (∀ b j, EightAt e.size xs.length b → j < 8 → ys[b + j]? = xs[b + 3 * j % 8]?.map g) ∧
      (∀ i, (∀ b, EightAt e.size xs.length b → i < b ∨ b + 8 ≤ i) → ys[i]? = xs[i]?.map g) := by
  obtain ⟨s', h⟩ := forEachStruct_pieces hE hF hce hpt zero junk f _ (onStructs_lanes hF zero f g hg) s xs hn ha
  refine ⟨s', _, h, ?_⟩
  clear h hn ha hg
  generalize hp : (fun x : List (Vector α c) => (reorder (F.env x.length) x).map g) = p
  have hlen (x : List (Vector α c)) : (p x).length = x.length := by subst hp; simp
  have hord (x : List (Vector α c)) (hx : x.length ≠ 8) : p x = x.map g := by
    subst hp
    have : ¬ Unordered (F.env x.length) := fun h => hx (by rw [← hF.width x.length]; exact h.2.2.2.2.1)
    simp only [reorder_ordered this]
  have height (x : List (Vector α c)) (hx : x.length = 8) (j : Nat) (hj : j < 8) : (p x)[j]? = x[3 * j % 8]?.map g := by
    subst hp
    simp only [List.getElem?_map]
    rw [reorder_getElem? _ _ (by omega), hx, if_pos hu]
  have hsize := hE.size_pos
  generalize e.size = z at hsize
  generalize hN : xs.length = n
  have hdm : n / z * z + n % z = n := Nat.div_add_mod' n z
  have hmod : n % z < z := Nat.mod_lt _ hsize
  have hsum : (List.replicate (n / z) z).sum = n / z * z := by simp
  refine ⟨by rw [mapPieces_length hlen _ (by rw [List.sum_append, bitsDesc_sum, hsum, hN]; omega), List.sum_append, bitsDesc_sum, hsum, hdm], ?_⟩
  rw [mapPieces_append, hsum]
  have hlen1 : (mapPieces p (List.replicate (n / z) z) xs).length = n / z * z := by
    rw [mapPieces_length hlen _ (by rw [hsum, hN]; omega), hsum]
  have small {ws : List Nat} (h8 : 8 ∉ ws) (ys : List (Vector α c)) (hl : ws.sum ≤ ys.length) : mapPieces p ws ys = (ys.take ws.sum).map g :=
    mapPieces_map (fun w hw x hx => hord x fun h => h8 (by rw [← h, hx]; exact hw)) ys hl
  have hget (k i m : Nat) : (((xs.drop k).take m).map g)[i]? = if i < m then xs[k + i]?.map g else none := by
    rw [List.getElem?_map, List.getElem?_take]
    split
    · rw [List.getElem?_drop]
    · rfl
  by_cases h8 : z = 8
  · subst h8
    -- the main loop goes in eights, the rest is shorter
    have htail : mapPieces p (bitsDesc (n % 8)) (xs.drop (n / 8 * 8)) = ((xs.drop (n / 8 * 8)).take (n % 8)).map g := by
      rw [small _ _ (by rw [bitsDesc_sum, List.length_drop]; omega), bitsDesc_sum]
      intro h
      have hs := bitsDesc_sum (n % 8)
      obtain ⟨a, b, hab⟩ := List.append_of_mem h
      rw [hab, List.sum_append, List.sum_cons] at hs
      omega
    rw [htail]
    constructor
    · rintro b j (⟨-, h1, h2⟩ | ⟨h1, -⟩) hj
      · have hb : b = b / 8 * 8 := by omega
        rw [List.getElem?_append_left (by rw [hlen1]; omega), hb, mapPieces_blocks hlen _ (by omega) (by omega) hj,
          height _ (by simp; omega) _ hj, List.getElem?_take, if_pos (by omega), List.getElem?_drop]
      · omega
    · intro i hi
      by_cases h : i < n / 8 * 8
      · have := hi (i / 8 * 8) (.inl ⟨rfl, by omega, by omega⟩)
        omega
      · rw [List.getElem?_append_right (by rw [hlen1]; omega), hlen1, hget]
        split
        · congr 2; omega
        · rw [List.getElem?_eq_none (by omega)]; rfl
  · have hhead : mapPieces p (List.replicate (n / z) z) xs = (xs.take (n / z * z)).map g := by
      rw [small (fun h => h8 (List.mem_replicate.1 h).2.symm) _ (by rw [hsum]; omega), hsum]
    obtain ⟨hi, lo, hb, hhi, hlo, n1, n2⟩ := bitsDesc_eight (n % z)
    rw [hhead, hb, mapPieces_append, hhi, small n1 _ (by rw [hhi, List.length_drop]; omega), hhi, List.drop_drop]
    by_cases he : 8 ≤ n % z % 16
    · have hz : 8 < z := by omega
      rw [if_pos he, List.singleton_append, mapPieces, List.drop_drop,
        small n2 _ (by rw [hlo, List.length_drop]; omega), hlo, ← List.append_assoc, ← List.map_append, ← List.take_add]
      generalize hB : n / z * z + n % z / 16 * 16 = B
      have hBn : B + 8 + n % z % 8 = n := by omega
      have hl0 : ((xs.take B).map g).length = B := by rw [List.length_map, List.length_take]; omega
      have hl1 : (p ((xs.drop B).take 8)).length = 8 := by rw [hlen]; simp; omega
      have hat (b : Nat) : EightAt z n b ↔ b = B := by
        constructor
        · rintro (⟨h, -⟩ | ⟨-, -, h⟩)
          · exact absurd h h8
          · omega
        · rintro rfl; exact .inr ⟨hz, he, hB.symm⟩
      constructor
      · intro b j h hj
        rw [hat] at h
        subst h
        rw [List.getElem?_append_right (by omega), hl0, List.getElem?_append_left (by omega), Nat.add_sub_cancel_left,
          height _ (by simp; omega) _ hj, List.getElem?_take, if_pos (by omega), List.getElem?_drop]
      · intro i h
        have := h B ((hat B).2 rfl)
        rcases this with h | h
        · rw [List.getElem?_append_left (by omega), List.getElem?_map, List.getElem?_take, if_pos h]
        · rw [List.getElem?_append_right (by omega), hl0, List.getElem?_append_right (by omega), hl1, hget]
          split
          · congr 2; omega
          · rw [List.getElem?_eq_none (by omega)]; rfl
    · rw [if_neg he, List.nil_append, small n2 _ (by rw [hlo, List.length_drop]; omega), hlo, ← List.append_assoc, ← List.map_append, ← List.map_append,
        ← List.take_add, ← List.take_add]
      have hall : n / z * z + n % z / 16 * 16 + n % z % 8 = n := by omega
      rw [hall, List.take_of_length_le (by omega)]
      constructor
      · rintro b j (⟨h, -⟩ | ⟨-, h, -⟩) hj
        · exact absurd h h8
        · exact absurd h he
      · intro i _
        rw [List.getElem?_map]

/-! ## The theorems applied to concrete data -/

private theorem eightLanes : StructRange pointEnv 4 ∧ StructRange { pointEnv with pol := ⟨[.unrollBy 2]⟩, addr := 40 } 4 ∧
    StructRange { pointEnv with size := 16 } 4 ∧ Unordered (pointFamily.env 8) := by
  refine ⟨⟨by decide, by decide, rfl, by decide, by decide, by decide, by decide, ⟨[], by decide⟩⟩,
    ⟨by decide, by decide, rfl, by decide, by decide, by decide, by decide, ⟨[.unrollBy 2], by decide⟩⟩,
    ⟨by decide, by decide, rfl, by decide, by decide, by decide, by decide, ⟨[], by decide⟩⟩, ?_⟩
  unfold Unordered; decide

private def somePoints (n : Nat) : List (Vector Nat 3) := (List.range n).map fun i => #v[i, i, i]

private theorem untouched : ∀ s (css : List (List (Vector Nat 3))), (nop.call s (css.map members)).2 = css.map fun cs => members (cs.map id) := by
  intro s css; simp [nop]

example := forEachStruct_policy_irrelevant eightLanes.1 eightLanes.2.1 rfl pointFamily_wf rfl rfl rfl rfl 0 (fun _ => 0) (fun _ => 1) nop id
  (by intro s vs; simp [nop]) () (somePoints 21) (by unfold Env.Fits; decide) (by unfold Env.Fits; decide) (by decide) (by decide)
example := forEachStruct_places eightLanes.1 pointFamily_wf eightLanes.2.2.2 rfl rfl 0 (fun _ => 0) nop id untouched () (somePoints 21)
  (by unfold Env.Fits; decide) (by decide)
example := forEachStruct_places eightLanes.2.2.1 pointFamily_wf eightLanes.2.2.2 rfl rfl 0 (fun _ => 0) nop id untouched () (somePoints 29)
  (by unfold Env.Fits; decide) (by decide)
example : EightAt 8 21 8 ∧ EightAt 16 29 16 ∧ ¬ EightAt 8 21 16 ∧ ¬ EightAt 16 23 16 := by unfold EightAt; decide

end Vir.ForEachStruct
