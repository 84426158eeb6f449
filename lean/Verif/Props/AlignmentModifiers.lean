import Verif.Props.CallCount
import Verif.Props.Relations

/-!
# C93: what the alignment modifiers change

`auto_prologue` decides at run time whether to process the elements before the first aligned address separately. For ranges of at
most 4000 bytes it does so only if those elements can be taken from the remainder, so that the simd objects of a call are the same
as without the modifier, in another order. If there is nothing to align, neither modifier changes anything.
-/

namespace Vir
open Spec ForEach Transform

variable {σ α : Type}

/-- `pol` is the policy of the call without `prefer_aligned` and `auto_prologue`. -/
structure Spec.Unmodified (e : Env) (pol : Policy) : Prop where
  unroll : pol.unrollBy = e.pol.unrollBy
  matching : pol.assumeMatchingSize = e.pol.assumeMatchingSize
  prefers : pol.prefersAligned = false
  auto : pol.autoPrologue = false
  reachable : pol.Reachable

/-- Nothing has to be done to reach alignment: the range starts at an aligned address, or the elements are not smaller than the
alignment (all arrays of structs). -/
def Spec.NothingToAlign (e : Env) : Prop := e.al e.size ∣ e.addr ∨ e.al e.size ≤ e.sz

private theorem testBit_sub {p l : Nat} (h : p &&& l = p) (k : Nat) : (l - p).testBit k = (l.testBit k && !p.testBit k) := by
  have hle := and_eq_self_le h
  have hbit (j : Nat) : p.testBit j = (p.testBit j && l.testBit j) := by conv_lhs => rw [← h, Nat.testBit_and]
  have h0 := hbit 0
  simp only [Nat.testBit_zero] at h0
  induction k generalizing p l with
  | zero =>
    simp only [Nat.testBit_zero]
    by_cases h1 : p % 2 = 1 <;> by_cases h2 : l % 2 = 1 <;> simp [h1, h2] at h0 ⊢ <;> omega
  | succ k ih =>
    have hh : p / 2 &&& l / 2 = p / 2 := by
      apply Nat.eq_of_testBit_eq
      intro j
      rw [Nat.testBit_and, Nat.testBit_div_two, Nat.testBit_div_two]
      exact (hbit (j + 1)).symm
    have hd : (l - p) / 2 = l / 2 - p / 2 := by
      by_cases h1 : p % 2 = 1 <;> by_cases h2 : l % 2 = 1 <;> simp [h1, h2] at h0 <;> omega
    have hbit' (j : Nat) : (p / 2).testBit j = ((p / 2).testBit j && (l / 2).testBit j) := by
      conv_lhs => rw [← hh, Nat.testBit_and]
    have h0' := hbit' 0
    simp only [Nat.testBit_zero] at h0'
    rw [Nat.testBit_succ, Nat.testBit_succ, Nat.testBit_succ, hd]
    exact ih hh (and_eq_self_le hh) hbit' h0'

private theorem asc_perm_desc (n k m : Nat) : (ascBits n k m ++ descBits n k).Perm (descBits n (k + m)) := by
  induction m generalizing k with
  | zero => simp [ascBits]
  | succ m ih =>
    have h := ih (k + 1)
    rw [show k + 1 + m = k + (m + 1) from by omega] at h
    refine List.Perm.trans ?_ h
    rw [ascBits, descBits]
    split
    · simpa using (List.perm_middle (a := 2 ^ k) (l₁ := ascBits n (k + 1) m) (l₂ := descBits n k)).symm
    · simp

private theorem bits_perm (n : Nat) : (bitsAsc n).Perm (bitsDesc n) := by
  simpa [bitsAsc, bitsDesc, descBits] using asc_perm_desc n 0 (n.log2 + 1)

private theorem descBits_split {p l : Nat} (h : p &&& l = p) (k : Nat) :
    (descBits p k ++ descBits (l - p) k).Perm (descBits l k) := by
  induction k with
  | zero => simp [descBits]
  | succ k ih =>
    have hp : p.testBit k = true → l.testBit k = true := by
      intro hb
      rw [← h, Nat.testBit_and] at hb
      simp at hb; exact hb.2
    simp only [descBits, testBit_sub h]
    by_cases h1 : p.testBit k = true
    · simp only [h1, hp h1, Bool.not_true, Bool.and_false, Bool.false_eq_true, if_false, if_true, List.nil_append, List.cons_append]
      exact ih.cons _
    · simp only [Bool.not_eq_true] at h1
      simp only [h1, Bool.not_false, Bool.and_true, Bool.false_eq_true, if_false, List.nil_append]
      split
      · exact List.perm_middle.trans (ih.cons _)
      · simpa using ih

/-- The elements before the aligned address are taken from the remainder. -/
private theorem bits_split {p l : Nat} (h : p &&& l = p) : (bitsAsc p ++ bitsDesc (l - p)).Perm (bitsDesc l) := by
  have hle := and_eq_self_le h
  have hl := lt_two_pow_log2_succ l
  have h1 := descBits_split h (l.log2 + 1)
  rw [bitsDesc_eq p _ (by omega), bitsDesc_eq (l - p) _ (by omega), bitsDesc_eq l _ hl] at h1
  exact ((bits_perm p).append_right _).trans h1

/-- Everything about the prologue of a short range. -/
private theorem auto_short {e : Env} (wf : e.WF) (ha : e.pol.prefersAligned = false) {n : Nat} (hs : n * e.sz ≤ 4000) :
    proCount e n ≤ n ∧ (n - proCount e n) / e.size = n / e.size ∧ proCount e n &&& n % e.size = proCount e n ∧
    (n - proCount e n) % e.size = n % e.size - proCount e n := by
  by_cases h0 : proCount e n = 0
  · simp [h0]
  have hu : useAligned e = false := by simp [useAligned, ha]
  rcases proCount_cases e n with h | ⟨h1, h2, h3⟩
  · exact absurd h h0
  obtain ⟨K, hK⟩ := proInfo wf h1
  have hlt := hK.tp_lt h2
  have hsub : toProcess e &&& n = toProcess e := by
    unfold proCount at h0
    rw [hu] at h0
    by_cases hh : n * e.sz > 4000 ∨ (toProcess e &&& n) = toProcess e
    · rcases hh with hh | hh
      · omega
      · exact hh
    · rw [if_neg hh] at h0
      exact absurd (by simp) h0
  rw [h3]
  have hdvd : 2 ^ K ∣ e.size := by
    have := (prologuePossible_iff e).1 h1
    rw [hK.al] at this
    exact Nat.dvd_of_mul_dvd_mul_right wf.sz_pos this.2.1
  have hlow : toProcess e &&& n % e.size = toProcess e := by
    apply Nat.eq_of_testBit_eq
    intro j
    rw [Nat.testBit_and]
    by_cases hj : j < K
    · have e1 : (n % e.size).testBit j = n.testBit j := by
        have e2 : (n % e.size) % 2 ^ K = n % 2 ^ K := Nat.mod_mod_of_dvd n hdvd
        have e3 : ((n % e.size) % 2 ^ K).testBit j = (n % 2 ^ K).testBit j := by rw [e2]
        rw [Nat.testBit_mod_two_pow, Nat.testBit_mod_two_pow] at e3
        simpa [hj] using e3
      rw [e1]
      conv_rhs => rw [← hsub, Nat.testBit_and]
    · have : (toProcess e).testBit j = false :=
        Nat.testBit_lt_two_pow (Nat.lt_of_lt_of_le hlt (Nat.pow_le_pow_right (by omega) (by omega)))
      simp [this]
  have hle := and_eq_self_le hlow
  have hdm := Nat.div_add_mod n e.size
  have hml := Nat.mod_lt n wf.size_pos
  generalize hq : n / e.size = q at *
  generalize hr : n % e.size = r at *
  have hn : n - toProcess e = e.size * q + (r - toProcess e) := by omega
  refine ⟨by omega, ?_, hlow, ?_⟩
  · rw [hn, Nat.mul_add_div wf.size_pos, Nat.div_eq_of_lt (by omega), Nat.add_zero]
  · rw [hn, Nat.mul_add_mod, Nat.mod_eq_of_lt (by omega)]

private theorem unmodified_proCount {e : Env} {pol : Policy} (h : Unmodified e pol) (n : Nat) :
    proCount { e with pol := pol } n = 0 := by
  simp [proCount, useAligned, maybeAnyway, h.prefers, h.auto]

private theorem callsOf_auto {e : Env} (wf : e.WF) (ha : e.pol.prefersAligned = false) {pol : Policy} (hm : Unmodified e pol)
    {n : Nat} (hs : n * e.sz ≤ 4000) : (callsOf e n).Perm (callsOf { e with pol := pol } n) := by
  obtain ⟨h1, h2, h3, h4⟩ := auto_short wf ha hs
  unfold callsOf
  rw [unmodified_proCount hm]
  split
  · exact List.Perm.refl _
  generalize proCount e n = p at *
  have hU : unroll { e with pol := pol } = unroll e := by simp [unroll, hm.unroll]
  have hI : unrolledIters { e with pol := pol } (n - 0) = unrolledIters e (n - p) := by
    unfold unrolledIters
    rw [hU, ← Nat.div_div_eq_div_mul, ← Nat.div_div_eq_div_mul, h2, hm.unroll]
    rfl
  have hQ : (n - 0 - unrolledIters e (n - p) * (e.size * unroll e)) / e.size =
      (n - p - unrolledIters e (n - p) * (e.size * unroll e)) / e.size := by
    rw [Nat.mul_left_comm, Nat.sub_mul_div, Nat.sub_mul_div, h2, Nat.sub_zero]
  simp only [hU, hI, hQ, bitsAsc_zero, singles, List.map_nil, List.nil_append, h4]
  have hb := (bits_split h3).map (fun w => (⟨w, 1⟩ : Call))
  rw [List.map_append] at hb
  generalize List.replicate (unrolledIters e (n - p)) (⟨e.size, unroll e⟩ : Call) = A
  generalize List.replicate ((n - p - unrolledIters e (n - p) * (e.size * unroll e)) / e.size) (⟨e.size, 1⟩ : Call) = B
  refine List.Perm.trans ?_ ((hb.append_left B).append_left A)
  simp only [← List.append_assoc]
  refine List.Perm.append_right _ ?_
  rw [List.append_assoc]
  exact List.perm_append_comm

private theorem widthsOf_auto {e : Env} (wf : e.WF) (ha : e.pol.prefersAligned = false) {pol : Policy} (hm : Unmodified e pol)
    {n : Nat} (hs : n * e.sz ≤ 4000) : (widthsOf e n).Perm (widthsOf { e with pol := pol } n) := by
  obtain ⟨h1, h2, h3, h4⟩ := auto_short wf ha hs
  unfold widthsOf
  rw [unmodified_proCount hm]
  split
  · exact List.Perm.refl _
  generalize proCount e n = p at *
  have hU : unroll { e with pol := pol } = unroll e := by simp [unroll, hm.unroll]
  have hI : unrolledIters { e with pol := pol } (n - 0) = unrolledIters e (n - p) := by
    unfold unrolledIters
    rw [hU, ← Nat.div_div_eq_div_mul, ← Nat.div_div_eq_div_mul, h2, hm.unroll]
    rfl
  have hQ : (n - 0 - unrolledIters e (n - p) * (e.size * unroll e)) / e.size =
      (n - p - unrolledIters e (n - p) * (e.size * unroll e)) / e.size := by
    rw [Nat.mul_left_comm, Nat.sub_mul_div, Nat.sub_mul_div, h2, Nat.sub_zero]
  simp only [hU, hI, hQ, bitsAsc_zero, List.nil_append, h4]
  have hb := bits_split h3
  generalize List.replicate (unrolledIters e (n - p) * unroll e) e.size = A
  generalize List.replicate ((n - p - unrolledIters e (n - p) * (e.size * unroll e)) / e.size) e.size = B
  refine List.Perm.trans ?_ ((hb.append_left B).append_left A)
  simp only [← List.append_assoc]
  refine List.Perm.append_right _ ?_
  rw [List.append_assoc]
  exact List.perm_append_comm

private theorem unmodified_wf {e : Env} (wf : e.WF) {pol : Policy} (hm : Unmodified e pol) : ({ e with pol := pol } : Env).WF :=
  ⟨wf.size_pos, wf.sz_pos, wf.al_pos, wf.al_natural, wf.al_mono, wf.al_pow, wf.al_le, wf.addr_dvd, hm.reachable⟩

private theorem nothing_proCount {e : Env} (h : NothingToAlign e) (n : Nat) : proCount e n = 0 := by
  rcases h with h | h
  · exact startsAligned_proCount (.inl h) n
  · have : prologuePossible e = false := by
      simp only [prologuePossible, Bool.and_eq_false_iff, decide_eq_false_iff_not]
      exact .inr (by omega)
    simp [proCount, useAligned, maybeAnyway, this]

private theorem callsOf_nothing {e : Env} (h : NothingToAlign e) {pol : Policy} (hm : Unmodified e pol) (n : Nat) :
    callsOf e n = callsOf { e with pol := pol } n := by
  unfold callsOf
  rw [nothing_proCount h, unmodified_proCount hm]
  simp [unrolledIters, unroll, hm.unroll]

private theorem widthsOf_nothing {e : Env} (h : NothingToAlign e) {pol : Policy} (hm : Unmodified e pol) (n : Nat) :
    widthsOf e n = widthsOf { e with pol := pol } n := by
  unfold widthsOf
  rw [nothing_proCount h, unmodified_proCount hm]
  simp [unrolledIters, unroll, hm.unroll]

/-- **C93 (`auto_prologue`, `for_each`).** On a range of at most 4000 bytes `auto_prologue` does not change the number of invocations,
nor how many simd objects of which widths the callable gets: only their order. -/
theorem forEach_autoPrologue {e : Env} (wf : e.WF) (hce : e.constEval = false) (hpt : e.strictPtr = false)
    (ha : e.pol.prefersAligned = false) {pol : Policy} (hm : Unmodified e pol) (wb : Bool) (f : Callable σ α) (s : σ) (xs : List α)
    (hf : e.Fits xs.length) (hd : e.pol.assumeMatchingSize = true → e.size ∣ xs.length) (hs : xs.length * e.sz ≤ 4000) :
    ∃ s1 s2 log1 log2 ys1 ys2, forEach e wb (logged f) (s, []) xs = .ok ((s1, log1), ys1) ∧
      forEach { e with pol := pol } wb (logged f) (s, []) xs = .ok ((s2, log2), ys2) ∧ (shapes log1).Perm (shapes log2) := by
  have hp := (auto_short wf ha hs).1
  have h1 := forEach_eq_run wf hce hf (.inr hp) (by simp [hpt]) hd wb (logged f) (s, []) xs rfl
  have h2 := forEach_eq_run (unmodified_wf wf hm) (n := xs.length) hce hf (.inr (by rw [unmodified_proCount hm]; omega))
    (by simp [hpt]) (by rw [show ({ e with pol := pol } : Env).pol = pol from rfl, hm.matching]; exact hd) wb (logged f) (s, []) xs rfl
  rw [run_logged] at h1 h2
  refine ⟨_, _, _, _, _, _, h1, h2, ?_⟩
  rw [List.nil_append, List.nil_append, shapes_eventsOf _ _ _ _ (Nat.le_of_eq (elems_callsOf wf.size_pos (.inr hp))),
    shapes_eventsOf _ _ _ _ (Nat.le_of_eq (elems_callsOf (unmodified_wf wf hm).size_pos (.inr (by rw [unmodified_proCount hm]; omega))))]
  exact (callsOf_auto wf ha hm hs).map _

/-- **C93 (`auto_prologue`, `transform`).** The same for `transform`: the chunks have the same widths, in another order. -/
theorem transform_autoPrologue {t : TEnv} {mem : List α} (ok : RangesOk t mem) (wf : t.e.WF) (hce : t.e.constEval = false)
    (hpt : t.e.strictPtr = false) (ha : t.e.pol.prefersAligned = false) {pol : Policy} (hm : Unmodified t.e pol)
    (hf : t.e.Fits t.n) (hd : t.e.pol.assumeMatchingSize = true → t.e.size ∣ t.n) (hs : t.n * t.e.sz ≤ 4000) (op : VecOp α α) :
    ∃ ws ws' : List Nat, ws.Perm ws' ∧
      transform t op mem = .ok ((t.n : Int), mem.take t.out ++ outs op t.ins mem 0 ws ++ mem.drop (t.out + t.n)) ∧
      transform { t with e := { t.e with pol := pol } } op mem =
        .ok ((t.n : Int), mem.take t.out ++ outs op t.ins mem 0 ws' ++ mem.drop (t.out + t.n)) := by
  have hp := (auto_short wf ha hs).1
  have h0 : proCount { t.e with pol := pol } t.n ≤ t.n := by rw [unmodified_proCount hm]; omega
  have h1 := transform_eq ok wf hce hf (.inr hp) (by simp [hpt]) hd op
  have h2 := transform_eq (t := { t with e := { t.e with pol := pol } }) (mem0 := mem) ⟨ok.1, ok.2, ok.3, ok.4⟩ (unmodified_wf wf hm)
    hce hf (.inr h0) (by simp [hpt]) (by show pol.assumeMatchingSize = true → _; rw [hm.matching]; exact hd) op
  have hs1 := widthsOf_sum wf.size_pos (.inr hp)
  have hs2 := widthsOf_sum (unmodified_wf wf hm).size_pos (.inr h0)
  refine ⟨_, _, widthsOf_auto wf ha hm hs, ?_, ?_⟩
  · rw [h1]
    simp only [writeAt]
    rw [outs_length op ok.ins_ne ok.ins_le 0 _ (by omega), hs1]
  · rw [h2]
    simp only [writeAt]
    rw [outs_length op ok.ins_ne ok.ins_le 0 _ (by omega), hs2]

/-- **C93 (nothing to align, `for_each`).** If the range starts at an aligned address or has no elements smaller than the alignment, then
`prefer_aligned` and `auto_prologue` change nothing: neither the invocations and their order nor the result. -/
theorem forEach_nothingToAlign {e : Env} (wf : e.WF) (hce : e.constEval = false) (hpt : e.strictPtr = false) (hn : NothingToAlign e)
    {pol : Policy} (hm : Unmodified e pol) (wb : Bool) (f : Callable σ α) (s : σ) (xs : List α) (hf : e.Fits xs.length) :
    forEach e wb f s xs = forEach { e with pol := pol } wb f s xs := by
  have h0 := nothing_proCount hn xs.length
  by_cases hd : e.pol.assumeMatchingSize = true → e.size ∣ xs.length
  · rw [forEach_eq_run wf hce hf (.inr (by omega)) (by simp [hpt]) hd wb f s xs rfl,
      forEach_eq_run (unmodified_wf wf hm) (n := xs.length) hce hf (.inr (by rw [unmodified_proCount hm]; omega))
        (by simp [hpt]) (by show pol.assumeMatchingSize = true → _; rw [hm.matching]; exact hd) wb f s xs rfl,
      callsOf_nothing hn hm]
  · have hd : e.pol.assumeMatchingSize = true ∧ ¬ e.size ∣ xs.length := by
      by_cases h : e.pol.assumeMatchingSize = true
      · exact ⟨h, fun h' => hd fun _ => h'⟩
      · exact absurd (fun h' => absurd h' h) hd
    rw [forEach_assume_traps hd.1 wb f s xs hd.2,
      forEach_assume_traps (e := { e with pol := pol }) (by show pol.assumeMatchingSize = true; rw [hm.matching]; exact hd.1) wb f s xs hd.2]

/-- **C93 (nothing to align, `transform`).** -/
theorem transform_nothingToAlign {t : TEnv} {mem : List α} (ok : RangesOk t mem) (wf : t.e.WF) (hce : t.e.constEval = false)
    (hpt : t.e.strictPtr = false) (hn : NothingToAlign t.e) {pol : Policy} (hm : Unmodified t.e pol) (hf : t.e.Fits t.n)
    (op : VecOp α α) : transform t op mem = transform { t with e := { t.e with pol := pol } } op mem := by
  have h0 := nothing_proCount hn t.n
  by_cases hd : t.e.pol.assumeMatchingSize = true → t.e.size ∣ t.n
  · rw [transform_eq ok wf hce hf (.inr (by omega)) (by simp [hpt]) hd op,
      transform_eq (t := { t with e := { t.e with pol := pol } }) (mem0 := mem) ⟨ok.1, ok.2, ok.3, ok.4⟩ (unmodified_wf wf hm)
        hce hf (.inr (by show proCount { t.e with pol := pol } t.n ≤ _; rw [unmodified_proCount hm]; omega)) (by simp [hpt])
        (by show pol.assumeMatchingSize = true → _; rw [hm.matching]; exact hd) op,
      widthsOf_nothing hn hm]
  · have hd : t.e.pol.assumeMatchingSize = true ∧ ¬ t.e.size ∣ t.n := by
      by_cases h : t.e.pol.assumeMatchingSize = true
      · exact ⟨h, fun h' => hd fun _ => h'⟩
      · exact absurd (fun h' => absurd h' h) hd
    rw [transform_assume_traps hd.1 hd.2 op mem,
      transform_assume_traps (t := { t with e := { t.e with pol := pol } }) (by show pol.assumeMatchingSize = true; rw [hm.matching]; exact hd.1)
        hd.2 op mem]

/-- Every full-width simd object in `L` starts at an aligned address if the first invocation starts at position `p`. -/
private def FullAligned (e : Env) : Nat → List (List Nat) → Prop
  | _, [] => True
  | p, ev :: L => (e.size ∈ ev → e.al e.size ∣ e.addr + p * e.sz) ∧ FullAligned e (p + ev.sum) L

private theorem fullAligned_append (e : Env) (p : Nat) (a b : List (List Nat)) :
    FullAligned e p (a ++ b) ↔ FullAligned e p a ∧ FullAligned e (p + a.flatten.sum) b := by
  induction a generalizing p with
  | nil => simp [FullAligned]
  | cons g a ih => simp [FullAligned, ih, and_assoc, Nat.add_assoc]

private theorem fullAligned_split {e : Env} {p : Nat} {L pre post : List (List Nat)} {ev : List Nat} (h : FullAligned e p L)
    (hl : L = pre ++ ev :: post) (hm : e.size ∈ ev) : e.al e.size ∣ e.addr + (p + pre.flatten.sum) * e.sz := by
  rw [hl, fullAligned_append] at h
  exact h.2.1 hm

private theorem fullAligned_small (e : Env) (p : Nat) (ws : List Nat) (h : ∀ w ∈ ws, w ≠ e.size) :
    FullAligned e p (ws.map fun w => [w]) := by
  induction ws generalizing p with
  | nil => trivial
  | cons w ws ih =>
    refine ⟨fun hm => ?_, ih _ fun v hv => h v (List.mem_cons_of_mem _ hv)⟩
    exact absurd (List.mem_singleton.1 hm).symm (h w (List.mem_cons_self ..))

private theorem fullAligned_replicate {e : Env} (hb : e.al e.size ∣ e.size * e.sz) (p q k : Nat)
    (h : e.al e.size ∣ e.addr + p * e.sz) : FullAligned e p (List.replicate q (List.replicate k e.size)) := by
  induction q generalizing p with
  | zero => trivial
  | succ q ih =>
    rw [List.replicate_succ]
    refine ⟨fun _ => h, ih _ ?_⟩
    rw [List.sum_replicate_nat, Nat.add_mul, ← Nat.add_assoc, Nat.mul_assoc]
    exact Nat.dvd_add h (Nat.dvd_mul_left_of_dvd hb k)

end Vir

namespace Vir.Spec

/-- The call has to align its main loop: the full-width simd type is over-aligned and an iteration keeps the alignment, and the policy
is `prefer_aligned`, or `auto_prologue` on a range of more than 4000 bytes. -/
def AlignsMainLoop (e : Env) (n : Nat) : Prop :=
  1 < e.size ∧ e.al e.size ∣ e.size * e.sz ∧ e.sz < e.al e.size ∧
    (e.pol.prefersAligned = true ∨ e.pol.autoPrologue = true ∧ 4000 < n * e.sz)

end Vir.Spec

namespace Vir
open Spec ForEach Transform

private theorem proCount_aligns {e : Env} (wf : e.WF) {n : Nat} (h : AlignsMainLoop e n) :
    e.al e.size ∣ e.addr + proCount e n * e.sz := by
  obtain ⟨h1, h2, h3, h4⟩ := h
  have hpp : prologuePossible e = true := (prologuePossible_iff e).2 ⟨h1, h2, h3⟩
  rcases h4 with h4 | ⟨h4, h5⟩
  · exact (proCount_aligned wf n (by simp [useAligned, h4, hpp])).2
  · obtain ⟨K, hK⟩ := proInfo wf hpp
    unfold proCount
    rw [if_pos (by simp [maybeAnyway, h4, hpp])]
    by_cases hm : misalignedBytes e = 0
    · rw [if_pos hm]
      unfold misalignedBytes at hm
      simpa using Nat.dvd_of_mod_eq_zero hm
    · rw [if_neg hm]
      split
      · exact hK.tp_al
      · rw [if_pos (.inl h5)]; exact hK.tp_al

private theorem bitsAsc_small {e : Env} (wf : e.WF) (n : Nat) : ∀ w ∈ bitsAsc (proCount e n), w ≠ e.size := by
  intro w hw
  rcases proCount_cases e n with h | ⟨h1, h2, h3⟩
  · rw [h] at hw; simp at hw
  · obtain ⟨K, hK⟩ := proInfo wf h1
    have hlt := hK.tp_lt h2
    rw [← h3] at hlt
    obtain ⟨j, _, _, rfl, hb⟩ := mem_ascBits hw
    have := Nat.ge_two_pow_of_testBit hb
    have := hK.le_size
    omega

private theorem bitsDesc_small {e : Env} (wf : e.WF) (n : Nat) : ∀ w ∈ bitsDesc ((n - proCount e n) % e.size), w ≠ e.size := by
  intro w hw
  obtain ⟨j, _, rfl, hb⟩ := mem_descBits hw
  have := Nat.ge_two_pow_of_testBit hb
  have := Nat.mod_lt (n - proCount e n) wf.size_pos
  omega

private theorem callsOf_fullAligned {e : Env} (wf : e.WF) {n : Nat} (h : AlignsMainLoop e n) :
    FullAligned e 0 ((callsOf e n).map fun c => List.replicate c.k c.w) := by
  unfold callsOf
  split
  · trivial
  have hp := proCount_aligns wf h
  have hlt := bitsAsc_small wf n
  have hgt := bitsDesc_small wf n
  have hsing : ∀ ws : List Nat, (singles ws).map (fun c => List.replicate c.k c.w) = ws.map fun w => [w] := by
    intro ws; simp [singles, List.map_map, Function.comp_def]
  simp only [List.map_append, List.map_replicate, hsing, fullAligned_append, Nat.zero_add]
  have hs1 : (((bitsAsc (proCount e n)).map fun w => [w]).flatten).sum = proCount e n := by
    rw [show ((bitsAsc (proCount e n)).map fun w => [w]).flatten = bitsAsc (proCount e n) by
      induction bitsAsc (proCount e n) with
      | nil => rfl
      | cons a l ih => simp [ih]]
    exact bitsAsc_sum _
  rw [hs1]
  refine ⟨fullAligned_small _ _ _ hlt, fullAligned_replicate h.2.1 _ _ _ hp, ?_, fullAligned_small _ _ _ hgt⟩
  refine fullAligned_replicate h.2.1 _ _ 1 ?_
  rw [Nat.add_mul, ← Nat.add_assoc]
  refine Nat.dvd_add hp ?_
  simp only [List.flatten_replicate_replicate, List.sum_replicate_nat, Nat.mul_assoc]
  exact Nat.dvd_mul_left_of_dvd (Nat.dvd_mul_left_of_dvd h.2.1 _) _

private theorem visited_length (log : List (Event α)) : (visited log).length = (shapes log).flatten.sum := by
  induction log with
  | nil => rfl
  | cons ev log ih =>
    have h : visited (ev :: log) = ev.args.flatten ++ visited log := by simp [visited]
    rw [h, List.length_append, ih]
    simp [shapes, List.length_flatten]

/-- **C93 (alignment of the main loop).** With `prefer_aligned`, and with `auto_prologue` on more than 4000 bytes, every invocation that
gets a simd object of the full width starts at an aligned address. -/
theorem forEach_fullWidth_aligned {e : Env} (wb : Bool) (f : Callable σ α) (s : σ) (xs : List α) (ok : CallOk e xs.length)
    (h : AlignsMainLoop e xs.length) :
    ∃ s1 log ys, forEach e wb (logged f) (s, []) xs = .ok ((s1, log), ys) ∧
      ∀ pre ev post, log = pre ++ ev :: post → (∃ c ∈ ev.args, c.length = e.size) →
        e.al e.size ∣ e.addr + (visited pre).length * e.sz := by
  have hp := (reaches_iff ok.wf).1 ok.reaches
  have h1 := forEach_eq_run ok.wf ok.run ok.fits hp (by simp [ok.ptr]) ok.matching wb (logged f) (s, []) xs rfl
  rw [run_logged] at h1
  refine ⟨_, _, _, h1, fun pre ev post hl ⟨c, hc, hw⟩ => ?_⟩
  have h2 := callsOf_fullAligned ok.wf h
  rw [← shapes_eventsOf f _ s xs (Nat.le_of_eq (elems_callsOf ok.wf.size_pos hp))] at h2
  rw [List.nil_append] at hl
  have := fullAligned_split h2 (pre := shapes pre) (ev := ev.args.map List.length) (post := shapes post) (by rw [hl]; simp [shapes])
    (List.mem_map.2 ⟨c, hc, hw⟩)
  rwa [Nat.zero_add, ← visited_length] at this

private theorem flatten_single (ws : List Nat) : (ws.map fun w => [w]).flatten = ws := by
  induction ws with
  | nil => rfl
  | cons a l ih => simp [ih]

private theorem widthsOf_fullAligned {e : Env} (wf : e.WF) {n : Nat} (h : AlignsMainLoop e n) :
    FullAligned e 0 ((widthsOf e n).map fun w => [w]) := by
  unfold widthsOf
  split
  · trivial
  have hp := proCount_aligns wf h
  have one : ∀ q p, e.al e.size ∣ e.addr + p * e.sz → FullAligned e p ((List.replicate q e.size).map fun w => [w]) := by
    intro q p hp
    rw [List.map_replicate]
    exact fullAligned_replicate h.2.1 p q 1 hp
  simp only [List.map_append, fullAligned_append, flatten_single, Nat.zero_add, bitsAsc_sum, List.sum_replicate_nat]
  refine ⟨fullAligned_small _ _ _ (bitsAsc_small wf n), one _ _ hp, one _ _ ?_, fullAligned_small _ _ _ (bitsDesc_small wf n)⟩
  rw [Nat.add_mul, ← Nat.add_assoc, Nat.mul_assoc]
  exact Nat.dvd_add hp (Nat.dvd_mul_left_of_dvd h.2.1 _)

/-- **C93 (alignment of the main loop, `transform`).** With `prefer_aligned`, and with `auto_prologue` on more than 4000 bytes of output,
every simd object of the full width is stored to an aligned address, whatever the alignment of the inputs: the operation is applied to
consecutive chunks of widths `ws`, and a full-width chunk starts at an aligned address of the output range. -/
theorem transform_fullWidth_aligned {t : TEnv} {mem : List α} (ok : RangesOk t mem) (call : CallOk t.e t.n) (h : AlignsMainLoop t.e t.n)
    (op : VecOp α α) : ∃ ws : List Nat, ws.sum = t.n ∧
      transform t op mem = .ok ((t.n : Int), mem.take t.out ++ outs op t.ins mem 0 ws ++ mem.drop (t.out + t.n)) ∧
      ∀ pre post, ws = pre ++ t.e.size :: post → t.e.al t.e.size ∣ t.e.addr + pre.sum * t.e.sz := by
  have hp := (reaches_iff call.wf).1 call.reaches
  have h1 := transform_eq ok call.wf call.run call.fits hp (by simp [call.ptr]) call.matching op
  have hs := widthsOf_sum call.wf.size_pos hp
  refine ⟨widthsOf t.e t.n, hs, ?_, fun pre post hw => ?_⟩
  · rw [h1]
    simp only [writeAt]
    rw [outs_length op ok.ins_ne ok.ins_le 0 _ (by omega), hs]
  · have := fullAligned_split (widthsOf_fullAligned call.wf h) (pre := pre.map fun w => [w]) (ev := [t.e.size]) (post := post.map fun w => [w])
      (by rw [hw]; simp) (by simp)
    rwa [Nat.zero_add, flatten_single] at this

private theorem reduceWidths_fullAligned {e : Env} (wf : e.WF) {n : Nat} (h : AlignsMainLoop e n) :
    FullAligned e 0 ((TransformReduce.proWidths e n ++ TransformReduce.mainWidths e n).map fun w => [w]) := by
  unfold TransformReduce.proWidths TransformReduce.mainWidths
  split
  · trivial
  have hp := proCount_aligns wf h
  simp only [List.map_append, fullAligned_append, flatten_single, Nat.zero_add, bitsAsc_sum]
  refine ⟨fullAligned_small _ _ _ (bitsAsc_small wf n), ?_, fullAligned_small _ _ _ (bitsDesc_small wf n)⟩
  rw [List.map_replicate]
  exact fullAligned_replicate h.2.1 _ _ 1 hp

/-- **C93 (alignment of the main loop, `transform_reduce`).** With `prefer_aligned`, and with `auto_prologue` on more than 4000 bytes of the first
range, every simd object of the full width that is loaded from the first range starts at an aligned address: `transform_op` is applied to
consecutive chunks of widths `ws`, whose values are combined with `init`, and a full-width chunk starts at an aligned address. -/
theorem transformReduce_fullWidth_aligned {R : REnv α β τ} {mem : List α} (ok : InputsOk R mem) (call : CallOk R.e R.n)
    (he : ¬ EndsAtFirstAligned R.e R.n) (hT : HReduce R.rT R.hredT) (hB : HReduce R.rB R.hredB)
    (hom : ∀ a b, R.cvt (R.rB a b) = R.rT (R.cvt a) (R.cvt b)) (h : AlignsMainLoop R.e R.n) (init : τ) :
    ∃ (ws : List Nat) (v : τ), ws.sum = R.n ∧ TransformReduce.transformReduce R mem init = .ok v ∧
      GSum R.rT (init :: (outs R.trans R.ins mem 0 ws).map R.cvt) v ∧
      ∀ pre post, ws = pre ++ R.e.size :: post → R.e.al R.e.size ∣ R.e.addr + pre.sum * R.e.sz := by
  have hp := (reaches_iff call.wf).1 call.reaches
  rw [ends_iff call.wf] at he
  obtain ⟨v, ys, h1, h2, h3⟩ := TransformReduce.transformReduce_gsum ok call.wf call.run call.fits (by omega) (by simp [call.ptr]) call.matching hT
    (fun _ => hB) init
  have hs := TransformReduce.widths_sum R.e R.n hp
  refine ⟨TransformReduce.proWidths R.e R.n ++ TransformReduce.mainWidths R.e R.n, v, by rw [List.sum_append, hs], h1, ?_, fun pre post hw => ?_⟩
  · have := h2.subst hom (pre := [init]) (post := TransformReduce.vals R mem (TransformReduce.proWidths R.e R.n).sum (TransformReduce.mainWidths R.e R.n)) (v := v) (by simpa using h3)
    rw [outs_append, List.map_append]
    simpa [TransformReduce.vals] using this
  · have := fullAligned_split (reduceWidths_fullAligned call.wf h) (pre := pre.map fun w => [w]) (ev := [R.e.size])
      (post := post.map fun w => [w]) (by rw [hw]; simp) (by simp)
    rwa [Nat.zero_add, flatten_single] at this

/-! ### Concrete cases -/

/-- `auto_prologue` on floats that start 4 bytes behind an aligned address. -/
private def autoEnv : Env := { exampleEnv with pol := ⟨[.autoPrologue]⟩ }

private theorem autoEnv_wf : autoEnv.WF :=
  libstdcxx_wf autoEnv (by decide) ⟨2, rfl⟩ rfl (by decide) ⟨[.autoPrologue], by decide⟩ (by decide)

private theorem plain_unmodified : Unmodified autoEnv ⟨[]⟩ :=
  ⟨by decide, by decide, by decide, by decide, ⟨[], by decide⟩⟩

/-- A callable that leaves its argument alone. -/
private def idle : Callable Unit Nat := ⟨fun s args => (s, args), fun _ _ => rfl⟩

-- seven floats: widths 1, 2, 4 instead of 4, 2, 1
example := forEach_autoPrologue autoEnv_wf rfl rfl (by decide) plain_unmodified true idle () [1, 2, 3, 4, 5, 6, 7] (by unfold Env.Fits; decide) (by decide)
  (by decide)
example : callsOf autoEnv 7 = [⟨1, 1⟩, ⟨2, 1⟩, ⟨4, 1⟩] ∧ callsOf { autoEnv with pol := ⟨[]⟩ } 7 = [⟨4, 1⟩, ⟨2, 1⟩, ⟨1, 1⟩] := by decide

example (op : VecOp Nat Nat) := transform_autoPrologue (t := ⟨autoEnv, [0], 7, 7⟩) (mem := List.range 14)
  ⟨by decide, by decide, by decide, by decide⟩ autoEnv_wf rfl rfl (by decide) plain_unmodified (by unfold Env.Fits; decide) (by decide) (by decide) op

-- an aligned range
private def alignedEnv : Env := { exampleEnv with addr := 0x1010 }

private theorem alignedEnv_wf : alignedEnv.WF :=
  libstdcxx_wf alignedEnv (by decide) ⟨2, rfl⟩ rfl (by decide) ⟨[.preferAligned, .unrollBy 2], by decide⟩ (by decide)

example := forEach_nothingToAlign alignedEnv_wf rfl rfl (.inl (by decide)) (pol := ⟨[.unrollBy 2]⟩)
  ⟨by decide, by decide, by decide, by decide, ⟨[.unrollBy 2], by decide⟩⟩ true idle () [1, 2, 3, 4, 5, 6, 7] (by unfold Env.Fits; decide)
example (op : VecOp Nat Nat) := transform_nothingToAlign (t := ⟨alignedEnv, [0], 7, 7⟩) (mem := List.range 14)
  ⟨by decide, by decide, by decide, by decide⟩ alignedEnv_wf rfl rfl (.inl (by decide)) (pol := ⟨[.unrollBy 2]⟩)
  ⟨by decide, by decide, by decide, by decide, ⟨[.unrollBy 2], by decide⟩⟩ (by unfold Env.Fits; decide) op

-- 1, 2, then 4 from the aligned address 0x1010 on
example := forEach_fullWidth_aligned (e := exampleEnv) true idle () [1, 2, 3, 4, 5, 6, 7]
  ⟨exampleEnv_wf, rfl, rfl, by unfold Env.Fits; decide, fun _ _ _ _ => Or.inr ⟨3, by decide, by decide⟩, by decide⟩ ⟨by decide, by decide, by decide, .inl (by decide)⟩

example (op : VecOp Nat Nat) := transform_fullWidth_aligned (t := ⟨exampleEnv, [0], 7, 7⟩) (mem := List.range 14)
  ⟨by decide, by decide, by decide, by decide⟩
  ⟨exampleEnv_wf, rfl, rfl, by unfold Env.Fits; decide, fun _ _ _ _ => Or.inr ⟨3, by decide, by decide⟩, by decide⟩ ⟨by decide, by decide, by decide, .inl (by decide)⟩ op

/-- Adds up the numbers of two ranges. -/
private def sum2 : REnv Nat Nat Nat where
  e := exampleEnv
  ins := [0, 7]
  n := 7
  trans := ⟨fun args => (args.headD []).zipWith (· + ·) (args.getD 1 (args.headD [])), fun w args hne hl => by
    match args, hne with
    | [a], _ => simp [hl]
    | a :: b :: _, _ => simp [hl]⟩
  rB := (· + ·)
  rT := (· + ·)
  cvt := id
  hredB v := v.tail.foldl (· + ·) (v.headD 0)
  hredT v := v.tail.foldl (· + ·) (v.headD 0)

private theorem sum2_red : HReduce (· + ·) fun v : List Nat => v.tail.foldl (· + ·) (v.headD 0) := by
  intro v hv
  cases v with
  | nil => exact absurd rfl hv
  | cons x xs => exact Simd.foldl_gsum (· + ·) x xs

example := transformReduce_fullWidth_aligned (R := sum2) (mem := List.range 14) ⟨by decide, by decide⟩
  ⟨exampleEnv_wf, rfl, rfl, by unfold Env.Fits; decide, fun _ _ _ _ => Or.inr ⟨3, by decide, by decide⟩, by decide⟩
  (by rw [ends_iff (e := sum2.e) exampleEnv_wf]; decide) sum2_red sum2_red (fun _ _ => rfl) ⟨by decide, by decide, by decide, .inl (by decide)⟩ 5

-- beyond 4000 bytes the number of invocations can change: 1001 floats take 252 instead of 251
example : (callsOf autoEnv 1001).length = 252 ∧ (callsOf { autoEnv with pol := ⟨[]⟩ } 1001).length = 251 := by
  constructor <;> (unfold callsOf; rw [if_neg (by decide)]; simp only [List.length_append, List.length_replicate]; decide)

end Vir
