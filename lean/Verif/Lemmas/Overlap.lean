import Verif.Spec.Overlap
import Verif.Lemmas.TransformGenEq
import Verif.Lemmas.GroupsAligned

/-! `transform` on ranges that overlap in any way. -/

namespace Vir
open Spec ForEach

variable {α : Type}

theorem sequential_length (g : List α → α) (ins : List Nat) (out p m : Nat) (mem : List α) :
    (sequential g ins out p m mem).length = mem.length := by
  induction m generalizing p mem with
  | zero => rfl
  | succ m ih => simp [sequential, ih]

theorem sequential_add (g : List α → α) (ins : List Nat) (out p m k : Nat) (mem : List α) :
    sequential g ins out p (m + k) mem = sequential g ins out (p + m) k (sequential g ins out p m mem) := by
  induction m generalizing p mem with
  | zero => simp [sequential]
  | succ m ih =>
    rw [Nat.succ_add_eq_add_succ, show m + k.succ = (m + k) + 1 by omega]
    simp only [sequential, ih]
    rw [show p + 1 + m = p + (m + 1) by omega]

theorem sequential_get (g : List α → α) (ins : List Nat) (out p m : Nat) (mem : List α) (h : out + p + m ≤ mem.length)
    (hd : ∀ a ∈ ins, out ≤ a ∨ a + m ≤ out) (j : Nat) :
    (sequential g ins out p m mem)[j]? =
      if out + p ≤ j ∧ j < out + p + m then some (g (ins.filterMap fun a => mem[a + (j - out)]?)) else mem[j]? := by
  induction m generalizing p mem with
  | zero => rw [if_neg (by omega)]; rfl
  | succ m ih =>
    rw [sequential, ih (p + 1) _ (by simp; omega) (fun a ha => by rcases hd a ha with h | h <;> omega)]
    by_cases h1 : out + (p + 1) ≤ j ∧ j < out + (p + 1) + m
    · rw [if_pos h1, if_pos (by omega)]
      congr 2
      apply filterMap_congr'
      intro a ha
      rw [List.getElem?_set_ne]
      rcases hd a ha with h | h <;> omega
    · rw [if_neg h1]
      by_cases h2 : j = out + p
      · subst h2
        rw [if_pos (by omega), List.getElem?_set_self (by omega), Nat.add_sub_cancel_left]
      · rw [if_neg (by omega), List.getElem?_set_ne (by omega)]

theorem sequential_get_lt (g : List α → α) (ins : List Nat) (out p m : Nat) (mem : List α) {j : Nat} (hj : j < out + p) :
    (sequential g ins out p m mem)[j]? = mem[j]? := by
  induction m generalizing p mem with
  | zero => rfl
  | succ m ih => rw [sequential, ih (p + 1) _ (by omega), List.getElem?_set_ne (by omega)]

/-- One group. -/
theorem writeAt_outs_sequential {op : VecOp α α} {g : List α → α} (hg : LaneWise op g) {t : TEnv} {mem : List α}
    (ok : RangesInside t mem) (p : Nat) (ws : List Nat) (h : p + ws.sum ≤ t.n) (hd : ∀ a ∈ t.ins, t.out ≤ a ∨ a + ws.sum ≤ t.out) :
    writeAt mem (t.out + p) (outs op t.ins mem p ws) = sequential g t.ins t.out p ws.sum mem := by
  have h1 := ok.out_le
  have hl := outs_length op ok.ins_ne ok.ins_le p ws h
  apply List.ext_getElem?
  intro j
  rw [writeAt_get _ _ _ (by omega), sequential_get _ _ _ _ _ _ (by omega) hd, hl]
  by_cases h2 : j < t.out + p
  · rw [if_pos h2, if_neg (by omega)]
  · rw [if_neg h2]
    by_cases h3 : j < t.out + p + ws.sum
    · rw [if_pos h3, if_pos (by omega), outs_laneWise hg ok.ins_ne ok.ins_le p ws h]
      simp only [List.getElem?_map, List.getElem?_range (show j - (t.out + p) < ws.sum by omega), Option.map_some]
      congr 3
      funext a
      congr 1
      omega
    · rw [if_neg h3, if_neg (by omega)]

theorem groupwise_length {op : VecOp α α} {t : TEnv} {mem : List α} (ok : RangesInside t mem) (p : Nat) (gs : List (List Nat))
    (h : p + gs.flatten.sum ≤ t.n) : (groupwise op t.ins t.out p gs mem).length = mem.length := by
  induction gs generalizing p mem with
  | nil => rfl
  | cons ws gs ih =>
    simp only [List.flatten_cons, List.sum_append_nat] at h
    have h1 := ok.out_le
    have hl := outs_length op ok.ins_ne ok.ins_le p ws (by omega)
    have hw := writeAt_length mem (t.out + p) (outs op t.ins mem p ws) (by omega)
    rw [groupwise, ih ⟨ok.ins_ne, by rw [hw]; exact ok.ins_le, by rw [hw]; exact h1⟩ _ (by omega), hw]

theorem groupwise_get_lt {op : VecOp α α} {t : TEnv} {mem : List α} (ok : RangesInside t mem) (p : Nat) (gs : List (List Nat))
    (h : p + gs.flatten.sum ≤ t.n) {j : Nat} (hj : j < t.out + p) : (groupwise op t.ins t.out p gs mem)[j]? = mem[j]? := by
  induction gs generalizing p mem with
  | nil => rfl
  | cons ws gs ih =>
    simp only [List.flatten_cons, List.sum_append_nat] at h
    have h1 := ok.out_le
    have hl := outs_length op ok.ins_ne ok.ins_le p ws (by omega)
    have hw := writeAt_length mem (t.out + p) (outs op t.ins mem p ws) (by omega)
    rw [groupwise, ih ⟨ok.ins_ne, by rw [hw]; exact ok.ins_le, by rw [hw]; exact h1⟩ _ (by omega) (by omega),
      writeAt_get _ _ _ (by omega), if_pos hj]

theorem groupwise_sequential {op : VecOp α α} {g : List α → α} (hg : LaneWise op g) {t : TEnv} {mem : List α}
    (ok : RangesInside t mem) (p : Nat) (gs : List (List Nat)) (h : p + gs.flatten.sum ≤ t.n)
    (hd : ∀ ws ∈ gs, ∀ a ∈ t.ins, t.out ≤ a ∨ a + ws.sum ≤ t.out) :
    groupwise op t.ins t.out p gs mem = sequential g t.ins t.out p gs.flatten.sum mem := by
  induction gs generalizing p mem with
  | nil => rfl
  | cons ws gs ih =>
    simp only [List.flatten_cons, List.sum_append_nat] at h ⊢
    have h1 := ok.out_le
    have hl := outs_length op ok.ins_ne ok.ins_le p ws (by omega)
    have hw := writeAt_length mem (t.out + p) (outs op t.ins mem p ws) (by omega)
    rw [groupwise, ih ⟨ok.ins_ne, by rw [hw]; exact ok.ins_le, by rw [hw]; exact h1⟩ _ (by omega)
      (fun w hm => hd w (List.mem_cons_of_mem _ hm)), sequential_add,
      writeAt_outs_sequential hg ok p ws (by omega) (hd ws (List.mem_cons_self ..))]

namespace Transform

section
variable {t : TEnv} {mem : List α}

private theorem loadIn_at (ok : RangesInside t mem) (p w : Nat) (h : p + w ≤ t.n) (a : Nat) (ha : a ∈ t.ins) :
    loadIn t mem w a (p : Int) = .ok (slice mem (a + p) w) := by
  have h1 := ok.ins_le a ha
  unfold loadIn
  rw [if_pos]
  · rw [show ((a : Int) + (p : Int)).toNat = a + p by omega]; rfl
  · simp only [inRange, Bool.and_eq_true, decide_eq_true_eq]
    omega

private theorem loadIns_at (ok : RangesInside t mem) (p w : Nat) (h : p + w ≤ t.n) (bs : List Nat) (hb : ∀ a ∈ bs, a ∈ t.ins) :
    loadIns t mem w (p : Int) bs = .ok (bs.map fun a => slice mem (a + p) w) := by
  induction bs with
  | nil => rfl
  | cons b bs ih =>
    simp only [loadIns, loadIn_at ok p w h b (hb b (by simp)), Outcome.bind_ok, ih (fun a ha => hb a (by simp [ha])), List.map_cons]

private theorem loadAndInvoke_at (ok : RangesInside t mem) (op : VecOp α α) (p w : Nat) (h : p + w ≤ t.n) :
    loadAndInvoke t op mem w (p : Int) (p : Int) = .ok (op.call (t.ins.map fun a => slice mem (a + p) w)) := by
  have hne := ok.ins_ne
  unfold loadAndInvoke
  cases hi : t.ins with
  | nil => exact absurd hi hne
  | cons b bs =>
    simp only [loadIn_at ok p w h b (by simp [hi]), Outcome.bind_ok,
      loadIns_at ok p w h bs (fun a ha => by simp [hi, ha]), List.map_cons]

private theorem unrollLoads_at (ok : RangesInside t mem) (op : VecOp α α) (w k p : Nat) (h : p + w * k ≤ t.n) :
    ∃ vs, unrollLoads t op mem w k (p : Int) (p : Int) = .ok vs ∧ vs.flatten = outs op t.ins mem p (List.replicate k w) ∧
      vs.length = k ∧ ∀ v ∈ vs, v.length = w := by
  induction k generalizing p with
  | zero => exact ⟨[], rfl, rfl, rfl, by simp⟩
  | succ k ih =>
    rw [Nat.mul_succ] at h
    obtain ⟨vs, h1, h2, h3, h4⟩ := ih (p + w) (by omega)
    refine ⟨op.call (t.ins.map fun a => slice mem (a + p) w) :: vs, ?_, ?_, by simp [h3], ?_⟩
    · simp only [unrollLoads, loadAndInvoke_at ok op p w (by omega), Outcome.bind_ok]
      rw [show (p : Int) + (w : Int) = ((p + w : Nat) : Int) by omega, h1]
      rfl
    · simp only [List.flatten_cons, h2, List.replicate_succ, outs]
    · intro v hv
      rcases List.mem_cons.1 hv with hv | hv
      · rw [hv]; exact op_length op ok.ins_ne ok.ins_le p w (by omega)
      · exact h4 v hv

private theorem unrollStores_at (aligned : Bool) (w : Nat) (vs : List (List α)) (p : Nat) (mem : List α)
    (hal : aligned = true → AlignedSeq t.e p (List.replicate vs.length w)) (hv : ∀ v ∈ vs, v.length = w) (h : p + w * vs.length ≤ t.n)
    (ho : t.out + t.n ≤ mem.length) :
    unrollStores t aligned w vs (p : Int) mem = .ok (writeAt mem (t.out + p) vs.flatten) := by
  induction vs generalizing p mem with
  | nil => simp [unrollStores]
  | cons v vs ih =>
    simp only [List.length_cons, Nat.mul_succ] at h
    have hvl := hv v (by simp)
    have hs : storeOut t mem aligned w (p : Int) v = .ok (writeAt mem (t.out + p) v) := by
      unfold storeOut
      rw [if_neg, if_neg]
      · rw [show ((t.out : Int) + (p : Int)).toNat = t.out + p by omega]
        simp [writeAt, hvl]
      · cases aligned with
        | false => simp
        | true => simp [(hal rfl).1]
      · simp only [inRange, Bool.not_eq_true', Bool.and_eq_false_iff, decide_eq_false_iff_not]
        omega
    simp only [unrollStores, hs, Outcome.bind_ok]
    rw [show (p : Int) + (w : Int) = ((p + w : Nat) : Int) by omega,
      ih (p + w) _ (fun h => (hal h).2) (fun x hx => hv x (by simp [hx])) (by omega)
        (by rw [writeAt_length _ _ _ (by rw [hvl]; omega)]; exact ho)]
    have hfl : vs.flatten.length = w * vs.length := by
      have hv' : ∀ x ∈ vs, x.length = w := fun x hx => hv x (by simp [hx])
      clear ih h hal hv hs
      induction vs with
      | nil => rfl
      | cons x vs ih =>
        rw [List.flatten_cons, List.length_append, ih fun y hy => hv' y (by simp [hy]), hv' x (by simp), List.length_cons, Nat.mul_succ]
        omega
    have := writeAt_writeAt mem (t.out + p) v vs.flatten (by rw [hvl, hfl]; omega)
    rw [hvl, Nat.add_assoc] at this
    rw [this]
    rfl

/-- The widths of the chunks of every group. -/
def groupWidths (gs : List Group) : List (List Nat) := gs.map fun g => List.replicate g.k g.w

theorem groupWidths_sum (gs : List Group) : (groupWidths gs).flatten.sum = span gs := by
  induction gs with
  | nil => rfl
  | cons g gs ih =>
    rw [span_cons, ← ih]
    simp [groupWidths, Group.elems, Nat.mul_comm]

theorem runGroups_groupwise (op : VecOp α α) (ok : RangesInside t mem) (p : Nat) (gs : List Group) (h : p + span gs ≤ t.n)
    (hal : GroupsAligned t.e p gs) :
    runGroups (atPos (chunks0 t op)) p gs mem = .ok (groupwise op t.ins t.out p (groupWidths gs) mem) := by
  induction gs generalizing p mem with
  | nil => rfl
  | cons g gs ih =>
    rw [span_cons] at h
    have hsum : (List.replicate g.k g.w).sum = g.elems := by simp [Group.elems, Nat.mul_comm]
    have hle : p + g.w * g.k ≤ t.n := by unfold Group.elems at h; omega
    obtain ⟨vs, h1, h2, h3, h4⟩ := unrollLoads_at ok op g.w g.k p hle
    have hst := unrollStores_at (t := t) g.aligned g.w vs p mem (by rw [h3]; exact hal.1) h4 (by rw [h3]; exact hle) ok.out_le
    have hl := outs_length op ok.ins_ne ok.ins_le p (List.replicate g.k g.w) (by rw [hsum]; omega)
    have h0 := ok.out_le
    have hw := writeAt_length mem (t.out + p) (outs op t.ins mem p (List.replicate g.k g.w)) (by rw [hl, hsum]; omega)
    have hone : atPos (chunks0 t op) g p mem = .ok (writeAt mem (t.out + p) (outs op t.ins mem p (List.replicate g.k g.w))) := by
      simp only [atPos, chunks0, h1, Outcome.bind_ok, hst, h2]
    simp only [runGroups, hone, Outcome.bind_ok]
    rw [ih ⟨ok.ins_ne, by rw [hw]; exact ok.ins_le, by rw [hw]; exact h0⟩ _ (by omega) hal.2]
    simp only [groupWidths, List.map_cons, groupwise, hsum]

end
end Transform
end Vir
