import Verif.Lemmas.ArrayPlaces
import Verif.Lemmas.ReduceArrays

/-! Lemmas about `transform_reduce` on arrays of structs whose loads may permute the lanes. -/

namespace Vir
open Spec ForEach TransformReduce TransformArrays Simdize

variable {α β : Type} {e : Env} {ins : List Range} {n : Nat} {arrays : List (List α)}

/-- A result for every position that agrees with every load, if the loads do not overlap. -/
theorem places_exist (hwf : ∀ I ∈ ins, I.F.WF I.c) (g : List (List α) → β) {ps : List (Nat × Nat)}
    (hdis : ∀ x ∈ ps, ∀ y ∈ ps, x = y ∨ x.1 + x.2 ≤ y.1 ∨ y.1 + y.2 ≤ x.1) :
    ∃ res : Nat → β,
      (∀ b j, (b, 8) ∈ ps → j < 8 → res (b + j) =
        g (ins.map fun I => structAt (contents arrays I) I.c (b + if Unordered (I.F.env 8) then 3 * j % 8 else j))) ∧
      (∀ i, (∀ b, (b, 8) ∈ ps → i < b ∨ b + 8 ≤ i) → res i = g (ins.map fun I => structAt (contents arrays I) I.c i)) ∧
      ∀ x ∈ ps, ∀ i < x.2, g (ins.map fun I => structAt (contents arrays I) I.c (x.1 + laneSrc I x.2 i)) = res (x.1 + i) := by
  classical
  let inEight : Nat → Nat → β := fun b j =>
    g (ins.map fun I => structAt (contents arrays I) I.c (b + if Unordered (I.F.env 8) then 3 * j % 8 else j))
  let res : Nat → β := fun i =>
    if h : ∃ b, (b, 8) ∈ ps ∧ b ≤ i ∧ i < b + 8 then inEight h.choose (i - h.choose)
    else g (ins.map fun I => structAt (contents arrays I) I.c i)
  have res_in : ∀ b j, (b, 8) ∈ ps → j < 8 → res (b + j) = inEight b j := by
    intro b j hb hj
    have h : ∃ c, (c, 8) ∈ ps ∧ c ≤ b + j ∧ b + j < c + 8 := ⟨b, hb, by omega, by omega⟩
    have hc := h.choose_spec
    have heq : h.choose = b := by
      rcases hdis _ hc.1 _ hb with h1 | h1 | h1
      · exact congrArg Prod.fst h1
      · simp only at h1; omega
      · simp only at h1; omega
    simp only [res, dif_pos h, heq, Nat.add_sub_cancel_left]
  have res_out : ∀ i, (∀ b, (b, 8) ∈ ps → i < b ∨ b + 8 ≤ i) → res i = g (ins.map fun I => structAt (contents arrays I) I.c i) := by
    intro i h
    have : ¬ ∃ b, (b, 8) ∈ ps ∧ b ≤ i ∧ i < b + 8 := by
      rintro ⟨b, hb, h1, h2⟩
      have := h b hb
      omega
    simp only [res, dif_neg this]
  refine ⟨res, res_in, res_out, ?_⟩
  rintro ⟨q, w⟩ hx i hi
  simp only at hi ⊢
  by_cases h8 : w = 8
  · subst h8
    rw [res_in q i hx hi]
    rfl
  · rw [res_out (q + i) ?_]
    · congr 1
      apply List.map_congr_left
      intro I hI
      have hF := hwf I hI
      have : ¬ Unordered (I.F.env w) := fun hu => h8 (by rw [← hF.width w]; exact hu.2.2.2.2.1)
      rw [laneSrc, if_neg this]
    · intro b hb
      rcases hdis _ hx _ hb with h1 | h1 | h1
      · exact absurd (congrArg Prod.snd h1) h8
      · simp only at h1; omega
      · simp only at h1; omega

theorem slices_arena {p w : Nat} (hp : p + w ≤ n) :
    ((bases n ins).map fun a => slice (arena arrays n ins) (a + p) w) = argsAt arrays ins w p := by
  apply List.ext_getElem
  · simp [bases, argsAt]
  · intro j h1 h2
    have hj : j < ins.length := by simpa [bases] using h1
    have := arena_drop (arrays := arrays) (n := n) hj
    simp only [bases, argsAt, List.getElem_map, List.getElem_range]
    have hsl : slice (arena arrays n ins) (j * n + p) w = ((((arena arrays n ins).drop (j * n)).take n).drop p).take w := by
      rw [slice, List.drop_take, List.take_take, List.drop_drop, Nat.min_eq_left (by omega)]
    rw [hsl, this, structsOf]
    apply List.ext_getElem
    · simp; omega
    · intro i h3 h4
      simp

theorem viewArgs_argsAt {w q : Nat} (hw : 0 < w) (hW : w ≤ e.size) :
    viewArgs e ins (argsAt arrays ins w q) =
      ins.map fun I => (List.range w).map fun i => structAt (contents arrays I) I.c (q + laneSrc I w i) := by
  induction ins with
  | nil => rfl
  | cons I Is ih =>
    have : argsAt arrays (I :: Is) w q = ((List.range w).map fun i => structAt (contents arrays I) I.c (q + i)) :: argsAt arrays Is w q := rfl
    rw [this, viewArgs, ih, List.map_cons]
    congr 1
    have hlen : ((List.range w).map fun i => structAt (contents arrays I) I.c (q + i)).length = w := by simp
    unfold view
    rw [hlen, if_pos hW]
    apply List.ext_getElem?
    intro i
    by_cases hi : i < w
    · rw [ForEachStruct.reorder_getElem? _ _ (by rw [hlen]; exact hi), hlen]
      have hmod : 3 * i % w < w := Nat.mod_lt _ hw
      simp only [List.getElem?_map, List.getElem?_range hi, Option.map_some, laneSrc]
      split
      · rw [List.getElem?_range hmod]; rfl
      · rw [List.getElem?_range hi]; rfl
    · rw [List.getElem?_eq_none (by simp; omega), List.getElem?_eq_none (by simp; omega)]

theorem outs_places {op : VecOp (List α) β} {g : List (List α) → β} (hop : LaneWise op g) (hne : ins ≠ []) {res : Nat → β} (p : Nat) (ws : List Nat)
    (hws : ∀ w ∈ ws, 0 < w ∧ w ≤ e.size) (hp : p + ws.sum ≤ n)
    (hc : ∀ x ∈ startsOf p ws, ∀ i < x.2, g (ins.map fun I => structAt (contents arrays I) I.c (x.1 + laneSrc I x.2 i)) = res (x.1 + i)) :
    outs (viewOp e ins op) (bases n ins) (arena arrays n ins) p ws = (List.range ws.sum).map fun i => res (p + i) := by
  induction ws generalizing p with
  | nil => rfl
  | cons w ws ih =>
    rw [List.sum_cons] at hp
    obtain ⟨hw, hW⟩ := hws w (by simp)
    have h1 : (viewOp e ins op).call (argsAt arrays ins w p) = (List.range w).map fun i => res (p + i) := by
      show op.call (viewArgs e ins (argsAt arrays ins w p)) = _
      rw [viewArgs_argsAt hw hW, hop w _ (by simpa using hne) (by
        intro a ha
        simp only [List.mem_map] at ha
        obtain ⟨I, _, rfl⟩ := ha
        simp)]
      apply List.map_congr_left
      intro i hi
      rw [filterMap_range_map (List.mem_range.1 hi)]
      exact hc (p, w) (by simp [startsOf]) i (List.mem_range.1 hi)
    rw [outs, slices_arena (by omega), h1, ih (p + w) (fun v hv => hws v (by simp [hv])) (by omega)
      (fun x hx => hc x (by rw [startsOf]; exact List.mem_cons_of_mem _ hx)), List.sum_cons, List.range_add, List.map_append, List.map_map]
    congr 1
    apply List.map_congr_left
    intro i _
    simp [Nat.add_assoc]

end Vir
