import Verif.Spec.Transform
import Verif.Lemmas.Loops

namespace Vir
open Spec ForEach

variable {α β : Type}

theorem writeAt_get (mem : List α) (d : Nat) (ys : List α) (h : d ≤ mem.length) (j : Nat) :
    (writeAt mem d ys)[j]? = if j < d then mem[j]? else if j < d + ys.length then ys[j - d]? else mem[j]? := by
  unfold writeAt
  rw [List.append_assoc, List.getElem?_append, List.length_take, Nat.min_eq_left h]
  by_cases h1 : j < d
  · simp [h1]
  · simp only [h1, if_false]
    rw [List.getElem?_append]
    by_cases h2 : j < d + ys.length
    · rw [if_pos (by omega), if_pos h2]
    · rw [if_neg (by omega), if_neg h2, List.getElem?_drop]
      congr 1; omega

theorem writeAt_length (mem : List α) (d : Nat) (ys : List α) (h : d + ys.length ≤ mem.length) :
    (writeAt mem d ys).length = mem.length := by
  simp [writeAt]; omega

@[simp] theorem writeAt_nil (mem : List α) (d : Nat) : writeAt mem d [] = mem := by
  simp [writeAt]

theorem slice_get (mem : List α) (a w j : Nat) : (slice mem a w)[j]? = if j < w then mem[a + j]? else none := by
  simp [slice, List.getElem?_take]

theorem slice_length (mem : List α) (a w : Nat) (h : a + w ≤ mem.length) : (slice mem a w).length = w := by
  simp [slice]; omega

theorem slice_writeAt (mem : List α) (d : Nat) (ys : List α) (a w : Nat) (h : d + ys.length ≤ mem.length)
    (hx : d + ys.length ≤ a ∨ a + w ≤ d) : slice (writeAt mem d ys) a w = slice mem a w := by
  apply List.ext_getElem?
  intro j
  rw [slice_get, slice_get, writeAt_get _ _ _ (by omega)]
  by_cases hj : j < w
  · simp only [hj, if_true]
    rcases hx with hx | hx
    · rw [if_neg (by omega), if_neg (by omega)]
    · rw [if_pos (by omega)]
  · simp [hj]

theorem writeAt_writeAt (mem : List α) (d : Nat) (ys zs : List α) (h : d + ys.length + zs.length ≤ mem.length) :
    writeAt (writeAt mem d ys) (d + ys.length) zs = writeAt mem d (ys ++ zs) := by
  apply List.ext_getElem?
  intro j
  rw [writeAt_get _ _ _ (by rw [writeAt_length _ _ _ (by omega)]; omega), writeAt_get _ _ _ (by omega),
    writeAt_get _ _ _ (by omega)]
  simp only [List.length_append]
  by_cases h1 : j < d
  · simp [h1, show j < d + ys.length by omega]
  · simp only [h1, if_false]
    by_cases h2 : j < d + ys.length
    · simp only [h2, if_true, show j < d + (ys.length + zs.length) by omega]
      rw [List.getElem?_append_left (by omega)]
    · simp only [h2, if_false]
      by_cases h3 : j < d + ys.length + zs.length
      · rw [if_pos h3, if_pos (by omega), List.getElem?_append_right (by omega)]
        congr 1; omega
      · rw [if_neg h3, if_neg (by omega)]

theorem filterMap_congr' {γ δ : Type} {f g : γ → Option δ} {l : List γ} (h : ∀ a ∈ l, f a = g a) :
    l.filterMap f = l.filterMap g := by
  induction l with
  | nil => rfl
  | cons x l ih =>
    rw [List.filterMap_cons, List.filterMap_cons, h x (by simp), ih (fun a ha => h a (by simp [ha]))]

theorem outs_append (op : VecOp α β) (ins : List Nat) (mem : List α) (p : Nat) (a b : List Nat) :
    outs op ins mem p (a ++ b) = outs op ins mem p a ++ outs op ins mem (p + a.sum) b := by
  induction a generalizing p with
  | nil => simp [outs]
  | cons w a ih => simp [outs, ih, Nat.add_assoc]

theorem op_length (op : VecOp α β) {ins : List Nat} {mem : List α} {n : Nat} (hi : ins ≠ [])
    (hle : ∀ a ∈ ins, a + n ≤ mem.length) (p w : Nat) (h : p + w ≤ n) :
    (op.call (ins.map fun a => slice mem (a + p) w)).length = w := by
  apply op.shape
  · simpa using hi
  · intro x hx
    simp only [List.mem_map] at hx
    obtain ⟨a, ha, rfl⟩ := hx
    have := hle a ha
    exact slice_length _ _ _ (by omega)

theorem outs_length (op : VecOp α β) {ins : List Nat} {mem : List α} {n : Nat} (hi : ins ≠ [])
    (hle : ∀ a ∈ ins, a + n ≤ mem.length) (p : Nat) (ws : List Nat) (h : p + ws.sum ≤ n) :
    (outs op ins mem p ws).length = ws.sum := by
  induction ws generalizing p with
  | nil => rfl
  | cons w ws ih =>
    simp only [List.sum_cons] at h
    simp only [outs, List.length_append, List.sum_cons, op_length op hi hle p w (by omega), ih (p + w) (by omega)]

/-- A lane-wise operation does not depend on the chunks. -/
theorem outs_laneWise {op : VecOp α β} {g : List α → β} (hg : LaneWise op g) {ins : List Nat} {mem : List α}
    {n : Nat} (hi : ins ≠ []) (hle : ∀ a ∈ ins, a + n ≤ mem.length) (p : Nat) (ws : List Nat)
    (h : p + ws.sum ≤ n) :
    outs op ins mem p ws = (List.range ws.sum).map fun i => g (ins.filterMap fun a => mem[a + (p + i)]?) := by
  induction ws generalizing p with
  | nil => rfl
  | cons w ws ih =>
    simp only [List.sum_cons] at h ⊢
    simp only [outs]
    rw [ih (p + w) (by omega), hg w _ (by simpa using hi) (by
      intro x hx
      simp only [List.mem_map] at hx
      obtain ⟨a, ha, rfl⟩ := hx
      have := hle a ha
      exact slice_length _ _ _ (by omega)), List.range_add, List.map_append]
    congr 1
    · apply List.map_congr_left
      intro i hi
      rw [List.mem_range] at hi
      rw [List.filterMap_map]
      congr 1
      apply filterMap_congr'
      intro a _
      simp only [Function.comp_apply, slice_get, hi, if_true, Nat.add_assoc]
    · rw [List.map_map]
      apply List.map_congr_left
      intro i _
      simp only [Function.comp_apply]
      congr 1
      apply filterMap_congr'
      intro a _
      congr 1; omega

namespace Transform

section
variable {t : TEnv} {mem0 : List α} (ok : RangesOk t mem0) (op : VecOp α α)

theorem loadIn_eq (ok : RangesOk t mem0) (ys : List α) (p w : Nat) (hy : ys.length ≤ p) (h : p + w ≤ t.n)
    (a : Nat) (ha : a ∈ t.ins) :
    loadIn t (writeAt mem0 t.out ys) w a (p : Int) = .ok (slice mem0 (a + p) w) := by
  have h1 := ok.ins_le a ha
  have h2 := ok.out_le
  have hl := writeAt_length mem0 t.out ys (by omega)
  unfold loadIn
  rw [if_pos]
  · rw [show ((a : Int) + (p : Int)).toNat = a + p by omega]
    have := slice_writeAt mem0 t.out ys (a + p) w (by omega) (by
      rcases ok.alias a ha with h | h <;> omega)
    rw [← this]; rfl
  · rw [hl]
    simp only [inRange, Bool.and_eq_true, decide_eq_true_eq]
    omega

theorem loadIns_eq (ok : RangesOk t mem0) (ys : List α) (p w : Nat) (hy : ys.length ≤ p) (h : p + w ≤ t.n)
    (bs : List Nat) (hb : ∀ a ∈ bs, a ∈ t.ins) :
    loadIns t (writeAt mem0 t.out ys) w (p : Int) bs = .ok (bs.map fun a => slice mem0 (a + p) w) := by
  induction bs with
  | nil => rfl
  | cons b bs ih =>
    simp only [loadIns, loadIn_eq ok ys p w hy h b (hb b (by simp)), Outcome.bind_ok,
      ih (fun a ha => hb a (by simp [ha])), List.map_cons]

theorem loadAndInvoke_eq (ok : RangesOk t mem0) (op : VecOp α α) (ys : List α) (p w : Nat) (hy : ys.length ≤ p)
    (h : p + w ≤ t.n) :
    loadAndInvoke t op (writeAt mem0 t.out ys) w (p : Int) (p : Int) =
      .ok (op.call (t.ins.map fun a => slice mem0 (a + p) w)) := by
  have hne := ok.ins_ne
  unfold loadAndInvoke
  cases hi : t.ins with
  | nil => exact absurd hi hne
  | cons b bs =>
    simp only [loadIn_eq ok ys p w hy h b (by simp [hi]), Outcome.bind_ok,
      loadIns_eq ok ys p w hy h bs (fun a ha => by simp [hi, ha]), List.map_cons]

theorem storeOut_eq (ok : RangesOk t mem0) (ys v : List α) (w : Nat) (aligned : Bool)
    (hal : aligned = true → alignedAt t.e (ys.length : Int) w = true) (hv : v.length = w)
    (h : ys.length + w ≤ t.n) :
    storeOut t (writeAt mem0 t.out ys) aligned w (ys.length : Int) v = .ok (writeAt mem0 t.out (ys ++ v)) := by
  have h2 := ok.out_le
  have hl := writeAt_length mem0 t.out ys (by omega)
  unfold storeOut
  rw [if_neg, if_neg]
  · rw [show ((t.out : Int) + (ys.length : Int)).toNat = t.out + ys.length by omega,
      ← writeAt_writeAt mem0 t.out ys v (by omega)]
    simp [writeAt, hv]
  · cases aligned with
    | false => simp
    | true => simp [hal rfl]
  · rw [hl]
    simp only [inRange, Bool.not_eq_true', Bool.and_eq_false_iff, decide_eq_false_iff_not]
    omega

/-- Phase predicate: `g`, started after the first `p` elements have been processed, processes chunks of the
widths `ws`. -/
def Does (t : TEnv) (op : VecOp α α) (mem0 : List α) (p : Nat) (ws : List Nat) (g : List α → Outcome (List α)) :
    Prop :=
  ∀ ys, ys.length = p → g (writeAt mem0 t.out ys) = .ok (writeAt mem0 t.out (ys ++ outs op t.ins mem0 p ws))

theorem Does.comp (ok : RangesOk t mem0) {op : VecOp α α} {p : Nat} {a b : List Nat} {g h}
    (hg : Does t op mem0 p a g) (hh : Does t op mem0 (p + a.sum) b h) (hn : p + a.sum ≤ t.n) :
    Does t op mem0 p (a ++ b) (fun m => g m >>= h) := by
  intro ys hy
  have hl := outs_length op ok.ins_ne ok.ins_le p a hn
  simp only [hg ys hy, Outcome.bind_ok]
  rw [hh _ (by rw [List.length_append, hy, hl]), outs_append, List.append_assoc]

theorem does_chunk (ok : RangesOk t mem0) (op : VecOp α α) (aligned : Bool) (w p : Nat)
    (hal : aligned = true → alignedAt t.e (p : Int) w = true) (h : p + w ≤ t.n) :
    Does t op mem0 p [w] (chunk t op aligned w (p : Int) (p : Int) (p : Int)) := by
  intro ys hy
  unfold chunk
  rw [loadAndInvoke_eq ok op ys p w (by omega) h]
  simp only [Outcome.bind_ok]
  subst hy
  rw [storeOut_eq ok ys _ w aligned hal (op_length op ok.ins_ne ok.ins_le _ _ h) h]
  simp [outs]

theorem does_prologue_aux (ok : RangesOk t mem0) (op : VecOp α α) (K tp k m : Nat)
    (hK : 1 < K) (h0 : tp ≠ 0) (ht : tp < 2 ^ K) (hk : k + m = K) (hm : 0 < m)
    (hal : AlignedSeq t.e (tp % 2 ^ k) (ascBits tp k m)) (hN : tp ≤ t.n) :
    Does t op mem0 (tp % 2 ^ k) (ascBits tp k m)
      (prologueRec t op (2 ^ K) tp k ((tp % 2 ^ k : Nat) : Int) ((tp % 2 ^ k : Nat) : Int)) := by
  induction m generalizing k with
  | zero => omega
  | succ m ih =>
    intro ys hy
    have hmax : (2 : Nat) ^ 1 < 2 ^ K := Nat.pow_lt_pow_right (by omega) hK
    have hlt : 2 ^ k < 2 ^ K := Nat.pow_lt_pow_right (by omega) (by omega)
    unfold prologueRec
    rw [if_neg (by simp [hasSingleBit_two_pow, hlt]; omega), if_neg (by omega)]
    have hne2 : ¬ 2 ^ K = 2 := by omega
    have hsum := ascBits_sum tp k (m + 1)
    rw [hk, Nat.mod_eq_of_lt ht] at hsum
    simp only [ascBits, List.sum_append] at hsum
    simp only [ascBits] at hal ⊢
    have hmod := mod_two_pow_succ' tp k
    have cont : ∀ ys', ys'.length = tp % 2 ^ (k + 1) →
        (if _h : 2 ^ k * 2 < 2 ^ K then
            prologueRec t op (2 ^ K) tp (k + 1) ((tp % 2 ^ (k + 1) : Nat) : Int) ((tp % 2 ^ (k + 1) : Nat) : Int)
              (writeAt mem0 t.out ys')
          else Outcome.ok (writeAt mem0 t.out ys')) =
          .ok (writeAt mem0 t.out (ys' ++ outs op t.ins mem0 (tp % 2 ^ (k + 1)) (ascBits tp (k + 1) m))) := by
      intro ys' hy'
      by_cases hmz : m = 0
      · subst hmz
        have hkK : k + 1 = K := by omega
        rw [dif_neg (by rw [← Nat.pow_succ, show k.succ = K from hkK]; omega)]
        simp [ascBits, outs]
      · have h2 : 2 ^ (k + 1) < 2 ^ K := Nat.pow_lt_pow_right (by omega) (by omega)
        rw [dif_pos (by rw [Nat.pow_succ] at h2; exact h2)]
        refine ih (k + 1) (by omega) (by omega) ?_ ys' hy'
        rw [alignedSeq_append] at hal
        have := hal.2
        rw [hmod]
        cases hb : tp.testBit k
        · simpa [hb] using this
        · simpa [hb] using this
    by_cases hb : tp.testBit k = true
    · have hne : (2 ^ k &&& tp) ≠ 0 := (two_pow_and_ne_zero k tp).2 hb
      simp only [hb, if_true] at hal hmod hsum ⊢
      rw [if_pos (Or.inr hne)]
      simp only [List.cons_append, List.nil_append, AlignedSeq] at hal
      simp only [List.cons_append, List.nil_append, List.sum_cons, List.sum_nil] at hsum ⊢
      have d1 := does_chunk ok op true (2 ^ k) (tp % 2 ^ k) (fun _ => hal.1) (by omega) ys hy
      have hcast : ((tp % 2 ^ k : Nat) : Int) + ((2 ^ k : Nat) : Int) = ((tp % 2 ^ (k + 1) : Nat) : Int) := by
        rw [hmod]; simp
      simp only [d1, Outcome.bind_ok, hne2, if_false, hcast]
      rw [cont _ (by rw [List.length_append, hy, outs_length op ok.ins_ne ok.ins_le _ _ (by simp; omega), hmod]; simp)]
      simp [outs, hmod]
    · have hne : ¬ (2 ^ k &&& tp) ≠ 0 := fun h => hb ((two_pow_and_ne_zero k tp).1 h)
      simp only [hb, if_false, Bool.false_eq_true, Nat.add_zero] at hal hmod hsum ⊢
      rw [if_neg (by rintro (h | h); exact hne2 h; exact hne h)]
      simp only [Outcome.bind_ok]
      have := cont ys (by rw [hmod]; exact hy)
      rw [hmod] at this
      simpa using this

theorem does_prologue (ok : RangesOk t mem0) (op : VecOp α α) (K tp : Nat) (hK : 0 < K) (h0 : tp ≠ 0)
    (ht : tp < 2 ^ K) (hal : AlignedSeq t.e 0 (bitsAsc tp)) (hN : tp ≤ t.n) :
    Does t op mem0 0 (bitsAsc tp) (prologueRec t op (2 ^ K) tp 0 0 0) := by
  by_cases hK1 : K = 1
  · subst hK1
    obtain rfl : tp = 1 := by simp at ht; omega
    intro ys hy
    have hb : bitsAsc 1 = [1] := by decide
    rw [hb] at hal ⊢
    unfold prologueRec
    rw [if_neg (by decide), if_neg (by decide), if_pos (Or.inl (by decide))]
    have := does_chunk ok op true 1 0 (fun _ => hal.1) (by omega) ys hy
    simp only [Nat.pow_zero]
    rw [show chunk t op true 1 0 0 0 (writeAt mem0 t.out ys) = _ from this]
    simp
  · have := does_prologue_aux ok op K tp 0 K (by omega) h0 ht (by omega) hK
      (by rw [bitsAsc_eq _ _ ht]; simpa [Nat.mod_one] using hal) hN
    rw [bitsAsc_eq _ _ ht] at this
    simpa [Nat.mod_one] using this

theorem does_epilogue (ok : RangesOk t mem0) (op : VecOp α α) (K v0 l : Nat) (aligned : Bool)
    (h1 : 2 ^ K < v0) (h2 : v0 ≤ 2 ^ (K + 1)) (hl : l < v0) (h0 : l ≠ 0) (hlN : l ≤ t.n)
    (hal : aligned = true → AlignedSeq t.e (t.n - l) (bitsDesc l)) :
    Does t op mem0 (t.n - l) (bitsDesc l)
      (epilogue t op v0 l (t.n : Int) ((t.n - l : Nat) : Int) ((t.n - l : Nat) : Int) aligned) := by
  induction K generalizing v0 l with
  | zero =>
    obtain rfl : v0 = 2 := by simp at h1 h2; omega
    obtain rfl : l = 1 := by omega
    intro ys hy
    unfold epilogue
    have hb : bitsDesc 1 = [1] := by decide
    rw [hb] at hal ⊢
    rw [dif_neg (by omega), if_pos rfl]
    have := does_chunk ok op aligned 1 (t.n - 1) (fun h => (hal h).1) (by omega) ys hy
    rw [← this]; congr 1; omega
  | succ K ih =>
    have hp := Nat.two_pow_pos K
    have hv : 2 < v0 := by rw [Nat.pow_succ] at h1; omega
    intro ys hy
    unfold epilogue
    rw [dif_neg (by omega), if_neg (by omega)]
    have hcast : (t.n : Int) - (l : Int) = ((t.n - l : Nat) : Int) := by omega
    have hw : stdBitCeil v0 / 2 = 2 ^ (K + 1) := by
      rw [stdBitCeil_unique h1 h2, Nat.pow_succ]; omega
    simp only [hw, hcast]
    have hw1 : 2 ^ (K + 1) > 1 := by rw [Nat.pow_succ]; omega
    simp only [hw1, if_true]
    have hlt : l < 2 ^ (K + 2) := Nat.lt_of_lt_of_le hl h2
    have hbits : bitsDesc l = (if l.testBit (K + 1) then [2 ^ (K + 1)] else []) ++ descBits l (K + 1) := by
      rw [← bitsDesc_eq l (K + 2) hlt]; rfl
    by_cases hb : l.testBit (K + 1) = true
    · have hge : 2 ^ (K + 1) ≤ l := Nat.ge_two_pow_of_testBit hb
      rw [if_pos ((and_two_pow_ne_zero _ _).2 hb)]
      have hsub : l - 2 ^ (K + 1) < 2 ^ (K + 1) := by rw [Nat.pow_succ] at hlt; omega
      have hrest : descBits l (K + 1) = bitsDesc (l - 2 ^ (K + 1)) := descBits_sub_top hb hlt
      simp only [hb, if_true, hrest] at hbits
      rw [hbits] at hal ⊢
      have hpos : t.n - l + 2 ^ (K + 1) = t.n - (l - 2 ^ (K + 1)) := by omega
      have d1 := does_chunk ok op aligned (2 ^ (K + 1)) (t.n - l) (fun h => (hal h).1) (by omega) ys hy
      have hcast2 : ((t.n - l : Nat) : Int) + ((2 ^ (K + 1) : Nat) : Int) =
        ((t.n - (l - 2 ^ (K + 1)) : Nat) : Int) := by omega
      simp only [d1, Outcome.bind_ok, hcast2]
      have hlen : (ys ++ outs op t.ins mem0 (t.n - l) [2 ^ (K + 1)]).length = t.n - (l - 2 ^ (K + 1)) := by
        rw [List.length_append, hy, outs_length op ok.ins_ne ok.ins_le _ _ (by simp; omega)]
        simp; omega
      by_cases hz : l - 2 ^ (K + 1) = 0
      · simp [hz]
      · simp only [ne_eq, hz, not_false_eq_true, if_true]
        rw [ih (2 ^ (K + 1)) (l - 2 ^ (K + 1)) (by rw [Nat.pow_succ]; omega) (Nat.le_refl _) hsub hz (by omega)
          (fun h => by have := (hal h).2; rwa [hpos] at this) _ hlen, outs_append, List.append_assoc]
        simp [hpos]
    · rw [if_neg (fun h => hb ((and_two_pow_ne_zero _ _).1 h))]
      simp only [Outcome.bind_ok]
      have hlt' : l < 2 ^ (K + 1) := lt_of_testBit_false (by simpa using hb) hlt
      rw [if_pos h0]
      exact ih (2 ^ (K + 1)) l (by rw [Nat.pow_succ]; omega) (Nat.le_refl _) hlt' h0 hlN hal ys hy

theorem unrollLoads_eq (ok : RangesOk t mem0) (op : VecOp α α) (ys : List α) (w k p : Nat) (hy : ys.length ≤ p)
    (h : p + w * k ≤ t.n) :
    ∃ vs, unrollLoads t op (writeAt mem0 t.out ys) w k (p : Int) (p : Int) = .ok vs ∧
      vs.flatten = outs op t.ins mem0 p (List.replicate k w) ∧ vs.length = k ∧ (∀ v ∈ vs, v.length = w) := by
  induction k generalizing p with
  | zero => exact ⟨[], rfl, rfl, rfl, by simp⟩
  | succ k ih =>
    rw [Nat.mul_succ] at h
    obtain ⟨vs, h1, h2, h3, h4⟩ := ih (p + w) (by omega) (by omega)
    refine ⟨op.call (t.ins.map fun a => slice mem0 (a + p) w) :: vs, ?_, ?_, ?_, ?_⟩
    · rw [Int.natCast_add] at h1
      simp only [unrollLoads, loadAndInvoke_eq ok op ys p w hy (by omega), Outcome.bind_ok, h1]
    · simp [outs, List.replicate_succ, h2]
    · simp [h3]
    · intro v hv
      rcases List.mem_cons.1 hv with rfl | hv
      · exact op_length op ok.ins_ne ok.ins_le _ _ (by omega)
      · exact h4 v hv

theorem unrollStores_eq (ok : RangesOk t mem0) (aligned : Bool) (w : Nat) (vs : List (List α)) (ys : List α)
    (hal : aligned = true → AlignedSeq t.e ys.length (List.replicate vs.length w))
    (hv : ∀ v ∈ vs, v.length = w) (h : ys.length + w * vs.length ≤ t.n) :
    unrollStores t aligned w vs (ys.length : Int) (writeAt mem0 t.out ys) =
      .ok (writeAt mem0 t.out (ys ++ vs.flatten)) := by
  induction vs generalizing ys with
  | nil => simp [unrollStores]
  | cons v vs ih =>
    simp only [List.length_cons, Nat.mul_succ] at h
    have hvl := hv v (by simp)
    simp only [unrollStores]
    rw [storeOut_eq ok ys v w aligned (fun h => (hal h).1) hvl (by omega)]
    simp only [Outcome.bind_ok]
    have := ih (ys ++ v) (fun h => by
      have := (hal h).2
      simpa [hvl] using this) (fun x hx => hv x (by simp [hx])) (by simp [hvl]; omega)
    rw [List.length_append, hvl, Int.natCast_add] at this
    simpa using this

end
end Transform
end Vir
