import Verif.Lemmas.Throwing

/-! Lemmas about `transform` with operations that have effects and may throw. -/

namespace Vir.Transform
open Spec ForEach

variable {σ α : Type} {t : TEnv} {mem0 : List α}

/-- The arguments of the invocation at position `p`. -/
def argsAt (t : TEnv) (mem0 : List α) (p w : Nat) : List (List α) := t.ins.map fun a => slice mem0 (a + p) w

theorem argsAt_length (ok : RangesOk t mem0) {p w : Nat} (h : p + w ≤ t.n) : ∀ a ∈ argsAt t mem0 p w, a.length = w := by
  intro a ha
  obtain ⟨b, hb, rfl⟩ := List.mem_map.1 ha
  have := ok.ins_le b hb
  exact slice_length _ _ _ (by omega)

theorem argsAt_ne (ok : RangesOk t mem0) (p w : Nat) : argsAt t mem0 p w ≠ [] := by
  simpa [argsAt] using ok.ins_ne

theorem loadArgs_eq (ok : RangesOk t mem0) (ys : List α) (p w : Nat) (hy : ys.length ≤ p) (h : p + w ≤ t.n) :
    loadArgs t (writeAt mem0 t.out ys) w (p : Int) (p : Int) = .ok (argsAt t mem0 p w) := by
  have hne := ok.ins_ne
  unfold loadArgs argsAt
  cases hi : t.ins with
  | nil => exact absurd hi hne
  | cons b bs =>
    simp only [loadIn_eq ok ys p w hy h b (by simp [hi]), Outcome.bind_ok,
      loadIns_eq ok ys p w hy h bs (fun a ha => by simp [hi, ha]), List.map_cons]

/-- The record of a complete evaluation of a group. -/
def groupLog (t : TEnv) (mem0 : List α) (p w : Nat) (rs : List (Nat × List α)) : List (OpEvent α) :=
  rs.map fun r => ⟨argsAt t mem0 (p + r.1 * w) w, some r.2⟩

theorem evalGroup_eq (ok : RangesOk t mem0) (op : TOp σ α) (ys : List α) (p w k : Nat) (hy : ys.length ≤ p) (h : p + w * k ≤ t.n)
    (is : List Nat) (his : ∀ i ∈ is, i < k) (s : σ) (log : List (OpEvent α)) :
    (∃ s' rs, evalGroup t (loggedOp op) (writeAt mem0 t.out ys) w (p : Int) (p : Int) is (s, log) =
        .ok ((s', log ++ groupLog t mem0 p w rs), some rs) ∧ rs.map Prod.fst = is ∧ ∀ r ∈ rs, r.2.length = w) ∨
    (∃ s' rs i, evalGroup t (loggedOp op) (writeAt mem0 t.out ys) w (p : Int) (p : Int) is (s, log) =
        .ok ((s', log ++ (groupLog t mem0 p w rs ++ [⟨argsAt t mem0 (p + i * w) w, none⟩])), none) ∧
      (rs.map Prod.fst ++ [i]) <+: is) := by
  induction is generalizing s log with
  | nil => left; exact ⟨s, [], by simp [evalGroup, groupLog], rfl, by simp⟩
  | cons i is ih =>
    have hi : i < k := his i (by simp)
    have hb : p + i * w + w ≤ t.n := by
      have : i * w + w ≤ w * k := by
        rw [← Nat.succ_mul, Nat.mul_comm w]
        exact Nat.mul_le_mul_right _ hi
      omega
    have hl := loadArgs_eq ok ys (p + i * w) w (by omega) hb
    rw [Int.natCast_add] at hl
    have hsh := op.shape s w (argsAt t mem0 (p + i * w) w)
    simp only [evalGroup, hl, Outcome.bind_ok, loggedOp]
    generalize op.call s (argsAt t mem0 (p + i * w) w) = c at hsh
    obtain ⟨s1, r⟩ := c
    cases r with
    | none =>
      right
      refine ⟨s1, [], i, ?_, ?_⟩
      · simp [groupLog]
      · simp
    | some v =>
      have hv := hsh v (argsAt_ne ok _ _) (argsAt_length ok hb) rfl
      rcases ih (fun j hj => his j (by simp [hj])) s1 (log ++ [⟨argsAt t mem0 (p + i * w) w, some v⟩]) with
        ⟨s', rs, h1, h2, h3⟩ | ⟨s', rs, j, h1, h2⟩
      · left
        refine ⟨s', (i, v) :: rs, ?_, by simp [h2], ?_⟩
        · dsimp only
          unfold loggedOp at h1
          rw [h1]
          simp [groupLog]
        · intro r hr
          rcases List.mem_cons.1 hr with rfl | hr
          · exact hv
          · exact h3 r hr
      · right
        refine ⟨s', (i, v) :: rs, j, ?_, by simpa using h2⟩
        dsimp only
        unfold loggedOp at h1
        rw [h1]
        simp [groupLog]

theorem storeGroup_eq (ok : RangesOk t mem0) (aligned : Bool) (w : Nat) (rs : List (Nat × List α)) (p j m : Nat) (ys : List α)
    (hy : ys.length = p + j * w) (hal : aligned = true → AlignedSeq t.e ys.length (List.replicate m w)) (h : ys.length + w * m ≤ t.n)
    (hrs : ∀ i, j ≤ i → i < j + m → ∃ v, rs.lookup i = some v ∧ v.length = w) :
    storeGroup t aligned w rs (p : Int) (List.range' j m) (writeAt mem0 t.out ys) =
      .ok (writeAt mem0 t.out (ys ++ ((List.range' j m).map fun i => (rs.lookup i).getD []).flatten)) := by
  induction m generalizing j ys with
  | zero => simp [storeGroup]
  | succ m ih =>
    obtain ⟨v, hv, hvl⟩ := hrs j (Nat.le_refl _) (by omega)
    rw [Nat.mul_succ] at h
    have hpos : (p : Int) + ((j * w : Nat) : Int) = (ys.length : Int) := by omega
    simp only [List.range'_succ, storeGroup, hv, hpos]
    rw [storeOut_eq ok ys v w aligned (fun h => (hal h).1) hvl (by omega)]
    simp only [Outcome.bind_ok]
    rw [ih (j + 1) (ys ++ v) (by rw [List.length_append, hy, hvl, Nat.succ_mul]; omega)
      (fun h => by simpa [hvl] using (hal h).2) (by rw [List.length_append, hvl]; omega) (fun i h1 h2 => hrs i (by omega) (by omega))]
    simp [hv]

theorem lookup_of_mem {rs : List (Nat × List α)} (hnd : (rs.map Prod.fst).Nodup) {r : Nat × List α} (hr : r ∈ rs) :
    rs.lookup r.1 = some r.2 := by
  induction rs with
  | nil => simp at hr
  | cons x rs ih =>
    simp only [List.map_cons, List.nodup_cons] at hnd
    rcases List.mem_cons.1 hr with rfl | hr
    · rw [show r = (r.1, r.2) from rfl, List.lookup_cons]; simp
    · have : r.1 ≠ x.1 := fun h => hnd.1 (List.mem_map.2 ⟨r, hr, h⟩)
      rw [show x = (x.1, x.2) from rfl, List.lookup_cons, show (r.1 == x.1) = false by simpa using this]
      exact ih hnd.2 hr

/-- The record of a group in the order of the positions. -/
def sorted (t : TEnv) (mem0 : List α) (p w k : Nat) (rs : List (Nat × List α)) : List (OpEvent α) :=
  (List.range k).map fun i => ⟨argsAt t mem0 (p + i * w) w, rs.lookup i⟩

theorem groupLog_perm (p w k : Nat) (rs : List (Nat × List α)) (h : (rs.map Prod.fst).Perm (List.range k)) :
    (groupLog t mem0 p w rs).Perm (sorted t mem0 p w k rs) := by
  have hnd : (rs.map Prod.fst).Nodup := h.nodup_iff.2 List.nodup_range
  have : groupLog t mem0 p w rs = (rs.map Prod.fst).map fun i => ⟨argsAt t mem0 (p + i * w) w, rs.lookup i⟩ := by
    unfold groupLog
    rw [List.map_map]
    apply List.map_congr_left
    intro r hr
    simp only [Function.comp_apply, lookup_of_mem hnd hr]
  rw [this]
  exact h.map _

theorem slice_append (mem : List α) (a w v : Nat) : slice mem a w ++ slice mem (a + w) v = slice mem a (w + v) := by
  simp only [slice, ← List.drop_drop, ← List.take_add]

theorem argsAt_getD (p w i : Nat) (hi : i < t.ins.length) : (argsAt t mem0 p w).getD i [] = slice mem0 (t.ins[i] + p) w := by
  simp [argsAt, hi]

theorem argsOf_append (i : Nat) (a b : List (OpEvent α)) : argsOf i (a ++ b) = argsOf i a ++ argsOf i b := by simp [argsOf]
theorem resultsOf_append (a b : List (OpEvent α)) : resultsOf (a ++ b) = resultsOf a ++ resultsOf b := by simp [resultsOf]

theorem argsOf_sorted (p w k i : Nat) (rs : List (Nat × List α)) (hi : i < t.ins.length) :
    argsOf i (sorted t mem0 p w k rs) = slice mem0 (t.ins[i] + p) (w * k) := by
  unfold argsOf sorted
  rw [List.map_map]
  induction k with
  | zero => simp [slice]
  | succ k ih =>
    rw [List.range_succ, List.map_append, List.flatten_append, ih]
    simp only [List.map_cons, List.map_nil, Function.comp_apply, argsAt_getD _ _ _ hi, List.flatten_cons, List.flatten_nil,
      List.append_nil]
    rw [Nat.mul_succ, ← slice_append, Nat.add_assoc, Nat.mul_comm w k]

/-- One group. -/
theorem chunksT_eq (ok : RangesOk t mem0) (ord : Nat → List Nat) (hord : ∀ k, (ord k).Perm (List.range k)) (op : TOp σ α) (g : Group)
    (s : σ) (log : List (OpEvent α)) (ys : List α)
    (hal : g.aligned = true → AlignedSeq t.e ys.length (List.replicate g.k g.w)) (h : ys.length + g.elems ≤ t.n) :
    (∃ s' log' evs, atPos (chunksT t ord (loggedOp op)) g ys.length (.inl ((s, log), writeAt mem0 t.out ys)) =
        .ok (.inl ((s', log ++ log'), writeAt mem0 t.out (ys ++ resultsOf evs))) ∧ log'.Perm evs ∧
        (∀ ev ∈ evs, ev.result.isSome ∧ ev.args.length = t.ins.length) ∧ (resultsOf evs).length = g.elems ∧
        (∀ i (_ : i < t.ins.length), argsOf i evs = slice mem0 (t.ins[i] + ys.length) g.elems)) ∨
    (∃ s' cur last, atPos (chunksT t ord (loggedOp op)) g ys.length (.inl ((s, log), writeAt mem0 t.out ys)) =
        .ok (.inr ((s', log ++ (cur ++ [last])), writeAt mem0 t.out ys)) ∧
        (∀ ev ∈ cur, ev.result.isSome) ∧ last.result = none ∧
        (∀ ev ∈ cur ++ [last], ∃ p, ys.length ≤ p ∧ p + g.w ≤ t.n ∧ ev.args = argsAt t mem0 p g.w)) := by
  have hw : ys.length + g.w * g.k ≤ t.n := h
  have hlt : ∀ i ∈ ord g.k, i < g.k := fun i hi => List.mem_range.1 ((hord g.k).mem_iff.1 hi)
  rcases evalGroup_eq ok op ys ys.length g.w g.k (Nat.le_refl _) hw (ord g.k) hlt s log with
    ⟨s', rs, h1, h2, h3⟩ | ⟨s', rs, i, h1, h2⟩
  · left
    have hperm : (rs.map Prod.fst).Perm (List.range g.k) := by rw [h2]; exact hord g.k
    have hnd : (rs.map Prod.fst).Nodup := hperm.nodup_iff.2 List.nodup_range
    have hlook : ∀ i, i < g.k → ∃ v, rs.lookup i = some v ∧ v.length = g.w := by
      intro i hi
      obtain ⟨r, hr, rfl⟩ := List.mem_map.1 (hperm.mem_iff.2 (List.mem_range.2 hi))
      exact ⟨r.2, lookup_of_mem hnd hr, h3 r hr⟩
    have hres : resultsOf (sorted t mem0 ys.length g.w g.k rs) = ((List.range g.k).map fun i => (rs.lookup i).getD []).flatten := by
      simp [resultsOf, sorted, Function.comp_def]
    refine ⟨s', groupLog t mem0 ys.length g.w rs, sorted t mem0 ys.length g.w g.k rs, ?_, groupLog_perm _ _ _ _ hperm, ?_, ?_, ?_⟩
    · unfold atPos chunksT
      simp only [h1, Outcome.bind_ok]
      have := storeGroup_eq ok g.aligned g.w rs ys.length 0 g.k ys (by simp) hal hw (fun i _ hi => hlook i (by omega))
      rw [← List.range_eq_range'] at this
      simp only [this, Outcome.bind_ok, hres]
    · intro ev hev
      obtain ⟨i, hi, rfl⟩ := List.mem_map.1 hev
      obtain ⟨v, hv, _⟩ := hlook i (List.mem_range.1 hi)
      simp [hv, argsAt]
    · rw [hres, List.length_flatten, List.map_map]
      have : (List.range g.k).map (List.length ∘ fun i => (rs.lookup i).getD []) = List.replicate g.k g.w := by
        rw [List.eq_replicate_iff]
        refine ⟨by simp, fun b hb => ?_⟩
        obtain ⟨i, hi, rfl⟩ := List.mem_map.1 hb
        obtain ⟨v, hv, hl⟩ := hlook i (List.mem_range.1 hi)
        simp [hv, hl]
      rw [this]
      simp [Group.elems, Nat.mul_comm]
    · intro i hi
      exact argsOf_sorted _ _ _ _ _ hi
  · right
    refine ⟨s', groupLog t mem0 ys.length g.w rs, ⟨argsAt t mem0 (ys.length + i * g.w) g.w, none⟩, ?_, ?_, rfl, ?_⟩
    · unfold atPos chunksT
      simp only [h1, Outcome.bind_ok]
    · intro ev hev
      obtain ⟨r, hr, rfl⟩ := List.mem_map.1 hev
      rfl
    · have hb : ∀ j ∈ rs.map Prod.fst ++ [i], ys.length + j * g.w + g.w ≤ t.n := by
        intro j hj
        have : j * g.w + g.w ≤ g.w * g.k := by
          rw [← Nat.succ_mul, Nat.mul_comm g.w]
          exact Nat.mul_le_mul_right _ (hlt j (h2.subset hj))
        omega
      intro ev hev
      rcases List.mem_append.1 hev with hev | hev
      · obtain ⟨r, hr, rfl⟩ := List.mem_map.1 hev
        exact ⟨ys.length + r.1 * g.w, by omega, hb _ (by simp only [List.mem_append, List.mem_map]; exact Or.inl ⟨r, hr, rfl⟩), rfl⟩
      · simp only [List.mem_singleton] at hev
        subst hev
        exact ⟨ys.length + i * g.w, by omega, hb i (by simp), rfl⟩

/-- All groups. -/
theorem runGroups_chunksT (ok : RangesOk t mem0) (ord : Nat → List Nat) (hord : ∀ k, (ord k).Perm (List.range k)) (op : TOp σ α)
    (gs : List Group) (s : σ) (log : List (OpEvent α)) (ys : List α)
    (hal : GroupsAligned t.e ys.length gs) (h : ys.length + span gs ≤ t.n) :
    (∃ s' log' evs, runGroups (atPos (chunksT t ord (loggedOp op))) ys.length gs (.inl ((s, log), writeAt mem0 t.out ys)) =
        .ok (.inl ((s', log ++ log'), writeAt mem0 t.out (ys ++ resultsOf evs))) ∧ log'.Perm evs ∧
        (∀ ev ∈ evs, ev.result.isSome ∧ ev.args.length = t.ins.length) ∧ (resultsOf evs).length = span gs ∧
        (∀ i (_ : i < t.ins.length), argsOf i evs = slice mem0 (t.ins[i] + ys.length) (span gs))) ∨
    (∃ s' log' evs cur last m, runGroups (atPos (chunksT t ord (loggedOp op))) ys.length gs (.inl ((s, log), writeAt mem0 t.out ys)) =
        .ok (.inr ((s', log ++ (log' ++ cur ++ [last])), writeAt mem0 t.out (ys ++ resultsOf evs))) ∧ log'.Perm evs ∧
        (∀ ev ∈ evs, ev.result.isSome ∧ ev.args.length = t.ins.length) ∧ (resultsOf evs).length = m ∧
        (∀ i (_ : i < t.ins.length), argsOf i evs = slice mem0 (t.ins[i] + ys.length) m) ∧
        (∀ ev ∈ cur, ev.result.isSome) ∧ last.result = none ∧
        (∀ ev ∈ cur ++ [last], ∃ p w, ys.length + m ≤ p ∧ p + w ≤ t.n ∧ ev.args = argsAt t mem0 p w)) := by
  induction gs generalizing s log ys with
  | nil =>
    left
    refine ⟨s, [], [], by simp [runGroups, resultsOf], List.Perm.refl _, by simp, by simp [resultsOf], ?_⟩
    intro i hi; simp [argsOf, slice]
  | cons g gs ih =>
    rw [span_cons] at h
    rcases chunksT_eq ok ord hord op g s log ys hal.1 (by omega) with ⟨s1, l1, e1, h1, h2, h3, h4, h5⟩ | ⟨s1, cur, last, h1, h2, h3, h4⟩
    · have hpos : ys.length + g.elems = (ys ++ resultsOf e1).length := by rw [List.length_append, h4]
      have hal2 := hal.2
      rw [hpos] at hal2
      simp only [runGroups, h1, Outcome.bind_ok, hpos]
      rcases ih s1 (log ++ l1) (ys ++ resultsOf e1) hal2 (by omega) with
        ⟨s', l2, e2, k1, k2, k3, k4, k5⟩ | ⟨s', l2, e2, cur, last, m, k1, k2, k3, k4, k5, k6, k7, k8⟩
      · left
        refine ⟨s', l1 ++ l2, e1 ++ e2, ?_, h2.append k2, ?_, ?_, ?_⟩
        · rw [k1, resultsOf_append]; simp
        · intro ev hev
          rcases List.mem_append.1 hev with hev | hev
          · exact h3 ev hev
          · exact k3 ev hev
        · rw [resultsOf_append, List.length_append, h4, k4, span_cons]
        · intro i hi
          rw [argsOf_append, h5 i hi, k5 i hi, ← hpos, ← Nat.add_assoc, slice_append, span_cons]
      · right
        refine ⟨s', l1 ++ l2, e1 ++ e2, cur, last, g.elems + m, ?_, h2.append k2, ?_, ?_, ?_, k6, k7, ?_⟩
        · rw [k1, resultsOf_append]; simp
        · intro ev hev
          rcases List.mem_append.1 hev with hev | hev
          · exact h3 ev hev
          · exact k3 ev hev
        · rw [resultsOf_append, List.length_append, h4, k4]
        · intro i hi
          rw [argsOf_append, h5 i hi, k5 i hi, ← hpos, ← Nat.add_assoc, slice_append]
        · intro ev hev
          obtain ⟨p, w, q1, q2, q3⟩ := k8 ev hev
          exact ⟨p, w, by omega, q2, q3⟩
    · right
      refine ⟨s1, [], [], cur, last, 0, ?_, List.Perm.refl _, by simp, by simp [resultsOf], ?_, h2, h3, ?_⟩
      · simp only [runGroups, h1, Outcome.bind_ok]
        rw [runGroups_thrown (atPos (chunksT t ord (loggedOp op))) (fun _ _ _ => rfl)]
        simp [resultsOf]
      · intro i hi; simp [argsOf, slice]
      · intro ev hev
        obtain ⟨p, q1, q2, q3⟩ := h4 ev hev
        exact ⟨p, g.w, by omega, q2, q3⟩

end Vir.Transform
