import Verif.Lemmas.Concurrent
import Verif.Lemmas.Transform

/-!
# The programs of `for_each` and `transform` do what the algorithms do
-/

namespace Vir.Threads
open Spec

variable {σ α : Type}

theorem each_succ (mk : Nat → Instr σ α) (a w : Nat) : each mk a (w + 1) = mk a :: each mk (a + 1) w := by
  simp only [each, List.range_succ_eq_map, List.map_cons, List.map_map, Nat.add_zero, List.cons.injEq, true_and]
  refine List.map_congr_left fun i _ => ?_
  simp only [Function.comp_apply]
  congr 1; omega

theorem loadsOf_each_load (a w : Nat) : loadsOf (each (Instr.load (σ := σ) (α := α)) a w) = List.range' a w := by
  induction w generalizing a with
  | zero => rfl
  | succ w ih => rw [each_succ, loadsOf, ih, List.range'_succ]

theorem storesOf_each_load (a w : Nat) : storesOf (each (Instr.load (σ := σ) (α := α)) a w) = [] := by
  induction w generalizing a with
  | zero => rfl
  | succ w ih => rw [each_succ, storesOf, ih]

theorem loadsOf_each_store (a w : Nat) : loadsOf (each (Instr.store (σ := σ) (α := α)) a w) = [] := by
  induction w generalizing a with
  | zero => rfl
  | succ w ih => rw [each_succ, loadsOf, ih]

theorem storesOf_each_store (a w : Nat) : storesOf (each (Instr.store (σ := σ) (α := α)) a w) = List.range' a w := by
  induction w generalizing a with
  | zero => rfl
  | succ w ih => rw [each_succ, storesOf, ih, List.range'_succ]

theorem exec_each_load (a w : Nat) (l : Local σ α) (mem : List α) (h : a + w ≤ mem.length) :
    exec (each .load a w) l mem = .ok (⟨l.st, l.args ++ slice mem a w, l.res⟩, mem) := by
  induction w generalizing a l with
  | zero => simp [each, exec, slice]
  | succ w ih =>
    rw [each_succ, exec, step, List.getElem?_eq_getElem (by omega)]
    simp only [Outcome.bind_ok]
    rw [ih _ _ (by omega)]
    simp only [slice, List.append_assoc, List.singleton_append]
    rw [List.drop_eq_getElem_cons (show a < mem.length by omega), List.take_succ_cons]

theorem exec_each_store (a : Nat) (l : Local σ α) (v res : List α) (hl : l.res = v ++ res) (mem : List α) (h : a + v.length ≤ mem.length) :
    exec (each .store a v.length) l mem = .ok (⟨l.st, l.args, res⟩, writeAt mem a v) := by
  induction v generalizing a l mem with
  | nil => simp [each, exec, writeAt]; cases l; simp_all
  | cons x v ih =>
    simp only [List.length_cons] at h
    rw [List.length_cons, each_succ, exec, step]
    simp only [hl, List.cons_append]
    rw [if_pos (by omega), Outcome.bind_ok, ih _ _ rfl _ (by simp; omega)]
    congr 2
    unfold writeAt
    simp only [List.length_cons, List.append_assoc]
    rw [List.take_set, List.drop_set_of_lt (by omega)]
    rw [show mem.take (a + 1) = mem.take a ++ [mem[a]'(by omega)] by rw [List.take_append_getElem]]
    rw [List.set_append, if_neg (by simp; omega)]
    simp only [List.length_take, Nat.min_eq_left (show a ≤ mem.length by omega), Nat.sub_self, List.set_cons_zero]
    rw [show a + (v.length + 1) = a + 1 + v.length by omega]
    simp

/-- The overwritten part of a part. -/
theorem slice_inside (mem xs : List α) (base p w : Nat) (h : base + xs.length ≤ mem.length) (hw : p + w ≤ xs.length) :
    slice (writeAt mem base xs) (base + p) w = (xs.drop p).take w := by
  apply List.ext_getElem?
  intro j
  rw [slice_get, writeAt_get _ _ _ (by omega), List.getElem?_take]
  by_cases hj : j < w
  · rw [if_pos hj, if_pos hj, if_neg (by omega), if_pos (by omega), List.getElem?_drop]
    congr 1; omega
  · rw [if_neg hj, if_neg hj]

theorem writeAt_inside (mem xs v : List α) (base p : Nat) (h : base + xs.length ≤ mem.length) (hw : p + v.length ≤ xs.length) :
    writeAt (writeAt mem base xs) (base + p) v = writeAt mem base (writeAt xs p v) := by
  have hl := writeAt_length xs p v hw
  apply List.ext_getElem?
  intro j
  rw [writeAt_get _ _ _ (by rw [writeAt_length _ _ _ h]; omega), writeAt_get _ _ _ (by omega), writeAt_get _ _ _ (by omega),
    writeAt_get _ _ _ (by omega), hl]
  by_cases h1 : j < base
  · rw [if_pos (by omega), if_pos h1, if_pos h1]
  · rw [if_neg h1, if_neg h1]
    by_cases h2 : j < base + xs.length
    · rw [if_pos h2]
      by_cases h3 : j < base + p
      · rw [if_pos h3, if_pos h2, if_pos (by omega)]
      · rw [if_neg h3, if_neg (show ¬ j - base < p by omega)]
        by_cases h4 : j < base + p + v.length
        · rw [if_pos h4, if_pos (show j - base < p + v.length by omega), show j - base - p = j - (base + p) by omega, if_pos h2]
        · rw [if_neg h4, if_neg (show ¬ j - base < p + v.length by omega), if_pos h2]
    · rw [if_neg h2, if_neg (by omega), if_neg (by omega), if_neg h2]

/-! ### the two algorithms -/

/-- Accesses of consecutive chunks that lie inside the range and have the promised alignment. -/
theorem accesses_ok {e : Env} {n w : Nat} {aligned : Bool} (mk : Nat → Instr σ α) (base : Nat) (k p : Nat)
    (h : ∀ i, i < k → ForEach.inRange n ((p + i * w : Nat) : Int) w = true ∧
      (aligned = true → ForEach.alignedAt e ((p + i * w : Nat) : Int) w = true)) :
    accesses e mk base n aligned w k (p : Int) = .ok (each mk (base + p) (w * k)) := by
  induction k generalizing p with
  | zero => simp [accesses, each]
  | succ k ih =>
    have h0 := h 0 (by omega)
    simp only [Nat.zero_mul, Nat.add_zero] at h0
    have hal : (aligned && !ForEach.alignedAt e (p : Int) w) = false := by
      cases ha : aligned
      · rfl
      · rw [h0.2 ha]; rfl
    have := ih (p + w) fun i hi => by
      have := h (i + 1) (by omega)
      rw [Nat.succ_mul] at this
      rw [show p + w + i * w = p + (i * w + w) by omega]; exact this
    simp only [accesses, h0.1, hal, Bool.not_true, Bool.false_eq_true, if_false]
    rw [← Int.natCast_add, this, Outcome.bind_ok, Int.toNat_natCast]
    congr 1
    unfold each
    rw [Nat.mul_succ, Nat.add_comm (w * k) w, List.range_add, List.map_append, List.map_map]
    congr 1
    refine List.map_congr_left fun i _ => ?_
    simp only [Function.comp_apply]
    congr 1; omega

theorem slice_chunks (xs : List α) (p w k : Nat) (h : p + w * k ≤ xs.length) :
    cut w k ((xs.drop p).take (w * k)) = (List.range k).map fun i => (xs.drop (p + i * w)).take w := by
  induction k generalizing p with
  | zero => rfl
  | succ k ih =>
    rw [Nat.mul_succ] at h ⊢
    rw [cut, List.range_succ_eq_map, List.map_cons, List.map_map]
    congr 1
    · rw [List.take_take]; simp
    · rw [List.drop_take, show w * k + w - w = w * k by omega, List.drop_drop, ih _ (by omega)]
      refine List.map_congr_left fun i _ => ?_
      simp only [Function.comp_apply]
      rw [Nat.succ_mul, show p + w + i * w = p + (i * w + w) by omega]

theorem loadAll_inv {e : Env} {xs : List α} {aligned : Bool} {w k p : Nat} {cs : List (List α)}
    (h : ForEach.loadAll e xs aligned w k (p : Int) = .ok cs) :
    (∀ i, i < k → ForEach.inRange xs.length ((p + i * w : Nat) : Int) w = true ∧
      (aligned = true → ForEach.alignedAt e ((p + i * w : Nat) : Int) w = true)) ∧
    cs = (List.range k).map fun i => (xs.drop (p + i * w)).take w := by
  induction k generalizing p cs with
  | zero => simp only [ForEach.loadAll] at h; injection h with h; subst h; simp
  | succ k ih =>
    simp only [ForEach.loadAll, ForEach.load] at h
    by_cases h1 : ForEach.inRange xs.length (p : Int) w = true
    · simp only [h1, Bool.not_true, Bool.false_eq_true, if_false] at h
      by_cases h2 : (aligned && !ForEach.alignedAt e (p : Int) w) = true
      · rw [if_pos h2] at h; cases h
      · rw [if_neg h2, Outcome.bind_ok] at h
        rw [← Int.natCast_add] at h
        generalize hr : ForEach.loadAll e xs aligned w k ((p + w : Nat) : Int) = r at h
        cases r with
        | ok r =>
          rw [Outcome.bind_ok] at h
          injection h with h
          obtain ⟨g1, g2⟩ := ih hr
          constructor
          · intro i hi
            cases i with
            | zero =>
              simp only [Nat.zero_mul, Nat.add_zero]
              refine ⟨h1, fun ha => ?_⟩
              cases hx : ForEach.alignedAt e (p : Int) w
              · exact absurd (by rw [ha, hx]; rfl) h2
              · rfl
            | succ i =>
              have := g1 i (by omega)
              rw [Nat.succ_mul, show p + (i * w + w) = p + w + i * w by omega]; exact this
          · subst h
            rw [List.range_succ_eq_map, List.map_cons, List.map_map, g2, Int.toNat_natCast]
            simp only [Nat.zero_mul, Nat.add_zero, List.cons.injEq, true_and]
            refine List.map_congr_left fun i _ => ?_
            simp only [Function.comp_apply]
            rw [Nat.succ_mul, show p + (i * w + w) = p + w + i * w by omega]
        | ub u => cases h
        | trap => cases h
    · simp only [h1, Bool.not_false, if_true] at h; cases h

theorem storeAll_inv {e : Env} {aligned : Bool} {w : Nat} {vs : List (List α)} {p : Nat} {xs ys : List α}
    (hv : ∀ v ∈ vs, v.length = w) (h : ForEach.storeAll e aligned w vs (p : Int) xs = .ok ys) :
    ys = writeAt xs p vs.flatten ∧ (vs ≠ [] → p + vs.flatten.length ≤ xs.length) := by
  induction vs generalizing p xs with
  | nil => simp only [ForEach.storeAll] at h; injection h with h; subst h; simp
  | cons v vs ih =>
    simp only [ForEach.storeAll, ForEach.store] at h
    by_cases h1 : ForEach.inRange xs.length (p : Int) w = true
    · simp only [h1, Bool.not_true, Bool.false_eq_true, if_false] at h
      by_cases h2 : (aligned && !ForEach.alignedAt e (p : Int) w) = true
      · rw [if_pos h2] at h; cases h
      · rw [if_neg h2, Outcome.bind_ok, Int.toNat_natCast, ← Int.natCast_add] at h
        have hvw : v.length = w := hv v (by simp)
        have hw : xs.take p ++ v ++ xs.drop (p + w) = writeAt xs p v := by simp [writeAt, hvw]
        have hp : p + v.length ≤ xs.length := by
          simp only [ForEach.inRange, decide_eq_true_eq] at h1; omega
        rw [hw] at h
        obtain ⟨g1, g2⟩ := ih (fun v hv' => hv v (by simp [hv'])) h
        rw [writeAt_length _ _ _ hp] at g2
        have hlen : p + (v :: vs).flatten.length ≤ xs.length := by
          by_cases hn : vs = []
          · subst hn; simpa using hp
          · have := g2 hn; simp only [List.flatten_cons, List.length_append]; omega
        refine ⟨?_, fun _ => hlen⟩
        rw [g1, ← hvw, writeAt_writeAt, List.flatten_cons]
        simp only [List.flatten_cons, List.length_append] at hlen; omega
    · simp only [h1, Bool.not_false, if_true] at h; cases h

theorem flatten_range (xs : List α) (p w k : Nat) (h : p + w * k ≤ xs.length) :
    ((List.range k).map fun i => (xs.drop (p + i * w)).take w).flatten = (xs.drop p).take (w * k) := by
  induction k generalizing p with
  | zero => simp
  | succ k ih =>
    rw [Nat.mul_succ] at h ⊢
    rw [List.range_succ_eq_map, List.map_cons, List.map_map, List.flatten_cons, Nat.add_comm (w * k) w, List.take_add, List.drop_drop]
    congr 1
    · simp
    · rw [← ih (p + w) (by omega)]
      congr 1
      refine List.map_congr_left fun i _ => ?_
      simp only [Function.comp_apply]
      rw [Nat.succ_mul, show p + w + i * w = p + (i * w + w) by omega]

theorem flatten_length {vs : List (List α)} {w : Nat} (h : ∀ v ∈ vs, v.length = w) : vs.flatten.length = w * vs.length := by
  induction vs with
  | nil => rfl
  | cons v vs ih =>
    simp only [List.flatten_cons, List.length_append, List.length_cons, Nat.mul_succ]
    rw [h v (by simp), ih fun v hv => h v (by simp [hv])]; omega

/-- What holds after the first `p` elements of a `for_each`. -/
structure Sim (wb : Bool) (base n : Nat) (s : σ) (mem : List α) (p : Nat) (st : σ × List α) (acc : List (Instr σ α)) : Prop where
  loads : loadsOf acc = List.range' base p
  stores : storesOf acc = if wb then List.range' base p else []
  run : exec acc ⟨s, [], []⟩ mem = .ok (⟨st.1, [], []⟩, writeAt mem base st.2)
  len : st.2.length = n

theorem emitInvoke_sim {e : Env} {wb : Bool} {f : Callable σ α} {base n : Nat} {s : σ} {mem : List α} (hm : base + n ≤ mem.length)
    {p : Nat} {st st' : σ × List α} {acc : List (Instr σ α)} (h : Sim wb base n s mem p st acc) {w : Nat} {aligned : Bool} {k : Nat}
    (hp : p + w * k ≤ n) (hr : ForEach.loadAndInvoke e wb f w aligned k (p : Int) st = .ok st') :
    ∃ acc', emitInvoke e wb f base n w aligned k (p : Int) acc = .ok acc' ∧ Sim wb base n s mem (p + w * k) st' acc' := by
  unfold ForEach.loadAndInvoke at hr
  generalize hc : ForEach.loadAll e st.2 aligned w k (p : Int) = c at hr
  cases c with
  | ub u => cases hr
  | trap => cases hr
  | ok cs =>
  rw [Outcome.bind_ok] at hr
  obtain ⟨hin, hcs⟩ := loadAll_inv hc
  rw [h.len] at hin
  have hls : accesses e (Instr.load (σ := σ) (α := α)) base n aligned w k (p : Int) = .ok (each .load (base + p) (w * k)) :=
    accesses_ok _ base k p hin
  have hss : accesses e (Instr.store (σ := σ) (α := α)) base n aligned w k (p : Int) = .ok (each .store (base + p) (w * k)) :=
    accesses_ok _ base k p hin
  have hcut : cut w k ((st.2.drop p).take (w * k)) = cs := by rw [slice_chunks _ _ _ _ (by rw [h.len]; exact hp), hcs]
  have hwl : (writeAt mem base st.2).length = mem.length := writeAt_length _ _ _ (by rw [h.len]; exact hm)
  have hload (l : Local σ α) : exec (each .load (base + p) (w * k)) l (writeAt mem base st.2) =
      .ok (⟨l.st, l.args ++ (st.2.drop p).take (w * k), l.res⟩, writeAt mem base st.2) := by
    rw [exec_each_load _ _ _ _ (by rw [hwl]; omega), slice_inside _ _ _ _ _ (by rw [h.len]; exact hm) (by rw [h.len]; exact hp)]
  have hloads : loadsOf acc ++ List.range' (base + p) (w * k) = List.range' base (p + w * k) := by
    rw [h.loads, List.range'_append_1]
  cases wb with
  | false =>
    simp only [Bool.false_eq_true, if_false] at hr
    injection hr with hr
    subst hr
    refine ⟨acc ++ (each .load (base + p) (w * k) ++ [.call fun s xs => ((f.call s (cut w k xs)).1, [])]), ?_, ?_, ?_, ?_, h.len⟩
    · simp [emitInvoke, hls]
    · rw [loadsOf_append, loadsOf_append, loadsOf_each_load]; simpa [loadsOf] using hloads
    · rw [storesOf_append, storesOf_append, storesOf_each_load, h.stores]; simp [storesOf]
    · rw [exec_append, h.run, Outcome.bind_ok, exec_append, hload, Outcome.bind_ok]
      simp [exec, step, hcut]
  | true =>
    simp only [if_true] at hr
    generalize hst : ForEach.storeAll e aligned w (f.call st.1 cs).2 (p : Int) st.2 = r at hr
    cases r with
    | ub u => cases hr
    | trap => cases hr
    | ok ys =>
    rw [Outcome.bind_ok] at hr
    injection hr with hr
    have hshape := f.shape st.1 cs
    have hlen : (f.call st.1 cs).2.length = k := by
      have := congrArg List.length hshape
      rw [List.length_map, List.length_map] at this
      rw [this, hcs]; simp
    have hws : ∀ v ∈ (f.call st.1 cs).2, v.length = w := by
      intro v hv
      have : v.length ∈ cs.map List.length := by rw [← hshape]; exact List.mem_map_of_mem hv
      rw [hcs, List.map_map, List.mem_map] at this
      obtain ⟨i, hi, h1⟩ := this
      have := (hin i (List.mem_range.1 hi)).1
      simp only [ForEach.inRange, decide_eq_true_eq] at this
      rw [← h1]
      simp only [Function.comp_apply, List.length_take, List.length_drop, h.len]; omega
    obtain ⟨hy, _⟩ := storeAll_inv hws hst
    have hfl := flatten_length hws
    rw [hlen] at hfl
    subst hy; subst hr
    refine ⟨acc ++ (each .load (base + p) (w * k) ++
      (.call fun s xs => ((f.call s (cut w k xs)).1, (f.call s (cut w k xs)).2.flatten)) :: each .store (base + p) (w * k)), ?_, ?_, ?_, ?_, ?_⟩
    · simp [emitInvoke, hls, hss]
    · rw [loadsOf_append, loadsOf_append, loadsOf_each_load, loadsOf, loadsOf_each_store]; simpa using hloads
    · rw [storesOf_append, storesOf_append, storesOf_each_load, storesOf, storesOf_each_store, h.stores]
      simp [List.range'_append_1]
    · rw [exec_append, h.run, Outcome.bind_ok, exec_append, hload, Outcome.bind_ok, exec]
      simp only [step, List.nil_append, hcut, Outcome.bind_ok]
      rw [← hfl, exec_each_store _ _ (f.call st.1 cs).2.flatten [] (by simp) _ (by rw [hwl]; omega), writeAt_inside _ _ _ _ _ (by rw [h.len]; exact hm)
        (by rw [h.len]; omega)]
    · rw [writeAt_length _ _ _ (by rw [h.len]; omega), h.len]

/-- Two runs of the same groups in related states. -/
theorem runGroups_sim {S T : Type} {inv : Group → Nat → S → Outcome S} {inv' : Group → Nat → T → Outcome T} {R : Nat → S → T → Prop} {n : Nat}
    (hstep : ∀ g p s t s', p + g.elems ≤ n → R p s t → inv g p s = .ok s' → ∃ t', inv' g p t = .ok t' ∧ R (p + g.elems) s' t')
    {gs : List Group} {p : Nat} {s s' : S} {t : T} (hp : p + span gs ≤ n) (hR : R p s t) (h : runGroups inv p gs s = .ok s') :
    ∃ t', runGroups inv' p gs t = .ok t' ∧ R (p + span gs) s' t' := by
  induction gs generalizing p s t with
  | nil => simp only [runGroups] at h; injection h with h; subst h; exact ⟨t, rfl, by simpa [span] using hR⟩
  | cons g gs ih =>
    rw [span_cons] at hp
    simp only [runGroups] at h
    generalize hi : inv g p s = r at h
    cases r with
    | ub u => cases h
    | trap => cases h
    | ok s1 =>
      rw [Outcome.bind_ok] at h
      obtain ⟨t1, h1, h2⟩ := hstep g p s t s1 (by omega) hR hi
      obtain ⟨t', h3, h4⟩ := ih (by omega) h2 h
      refine ⟨t', by simp only [runGroups]; rw [h1, Outcome.bind_ok, h3], ?_⟩
      rw [span_cons, ← Nat.add_assoc]; exact h4

theorem forEachProgram_sim {e : Env} (wf : e.WF) (hce : e.constEval = false) (hpt : e.strictPtr = false) {n : Nat} (hf : e.Fits n)
    (hp : n = 0 ∨ proCount e n ≤ n) (ha : e.pol.assumeMatchingSize = true → e.size ∣ n) (wb : Bool) (f : Callable σ α) (s : σ)
    (base : Nat) (mem : List α) (hm : base + n ≤ mem.length) {r : σ × List α} (hr : ForEach.forEach e wb f s (slice mem base n) = .ok r) :
    ∃ prog, forEachProgram e wb f base n = .ok prog ∧ Sim wb base n s mem n r prog := by
  have hn : (slice mem base n).length = n := slice_length _ _ _ hm
  have hst : e.strictPtr = true → n = 0 ∨ (e.size ≤ n ∧ (1 < e.pol.unrollBy → e.size * unroll e ≤ n)) := by simp [hpt]
  rw [ForEach.forEach_eq_forEachG, hn, ForEach.forEachG_trace wf hce hf hp hst ha] at hr
  have h0 : Sim wb base n s mem 0 (s, slice mem base n) ([] : List (Instr σ α)) := by
    refine ⟨rfl, by cases wb <;> rfl, ?_, hn⟩
    rw [exec]; congr 2
    apply List.ext_getElem?
    intro j
    rw [writeAt_get _ _ _ (by omega), slice_get, hn]
    by_cases h1 : j < base
    · rw [if_pos h1]
    · rw [if_neg h1]
      by_cases h2 : j < base + n
      · rw [if_pos h2, if_pos (by omega)]; congr 1; omega
      · rw [if_neg h2]
  have hspan := Transform.groupsOf_span hp
  obtain ⟨prog, h1, h2⟩ := runGroups_sim (R := fun p st acc => Sim wb base n s mem p st acc) (n := n)
    (inv' := ForEach.atPos (emitInvoke e wb f base n))
    (fun g p st acc st' hp hR hi => emitInvoke_sim hm hR hp hi) (by omega) h0 hr
  rw [hspan, Nat.zero_add] at h2
  refine ⟨prog, ?_, h2⟩
  rw [forEachProgram, ForEach.forEachG_trace wf hce hf hp hst ha, h1]

theorem cut_flatten {vs : List (List α)} {w : Nat} (h : ∀ v ∈ vs, v.length = w) : cut w vs.length vs.flatten = vs := by
  induction vs with
  | nil => rfl
  | cons v vs ih =>
    have hv := h v (by simp)
    rw [List.length_cons, cut, List.flatten_cons, ← hv, List.take_left, List.drop_left, hv, ih fun v hv => h v (by simp [hv])]

/-- Inside the ranges that `transform` reads. -/
def Inside (t : TEnv) (a : Nat) : Prop := ∃ b ∈ t.ins, b ≤ a ∧ a < b + t.n

theorem emitIn_sim {t : TEnv} {m : List α} {w b : Nat} (hb : b ∈ t.ins) {pos : Int} {c : List α}
    (h : Transform.loadIn t m w b pos = .ok c) :
    ∃ ls : List (Instr σ α), emitIn t w b pos = .ok ls ∧ storesOf ls = [] ∧ (∀ a ∈ loadsOf ls, Inside t a) ∧ c.length = w ∧
      ∀ l : Local σ α, exec ls l m = .ok (⟨l.st, l.args ++ c, l.res⟩, m) := by
  unfold Transform.loadIn at h
  split at h
  · rename_i hc
    injection h with h
    simp only [Bool.and_eq_true] at hc
    have h1 := hc.1
    have h2 := hc.2
    simp only [ForEach.inRange, decide_eq_true_eq] at h1 h2
    have hN : ((b : Int) + pos).toNat = b + pos.toNat := by omega
    refine ⟨each .load (b + pos.toNat) w, by rw [emitIn, if_pos hc.1], storesOf_each_load _ _, ?_, ?_, ?_⟩
    · intro a ha
      rw [loadsOf_each_load, List.mem_range'_1] at ha
      exact ⟨b, hb, by omega, by omega⟩
    · rw [← h, hN]; simp only [List.length_take, List.length_drop]; omega
    · intro l
      rw [exec_each_load _ _ _ _ (by omega), ← h, hN]; rfl
  · cases h

theorem emitIns_sim {t : TEnv} {m : List α} {w : Nat} {bs : List Nat} (hb : ∀ b ∈ bs, b ∈ t.ins) {pos : Int} {cs : List (List α)}
    (h : Transform.loadIns t m w pos bs = .ok cs) :
    ∃ ls : List (Instr σ α), emitIns t w pos bs = .ok ls ∧ storesOf ls = [] ∧ (∀ a ∈ loadsOf ls, Inside t a) ∧
      (∀ c ∈ cs, c.length = w) ∧ cs.length = bs.length ∧ ∀ l : Local σ α, exec ls l m = .ok (⟨l.st, l.args ++ cs.flatten, l.res⟩, m) := by
  induction bs generalizing cs with
  | nil =>
    simp only [Transform.loadIns] at h; injection h with h; subst h
    exact ⟨[], rfl, rfl, by simp [loadsOf], by simp, rfl, by simp [exec]⟩
  | cons b bs ih =>
    simp only [Transform.loadIns] at h
    generalize hc : Transform.loadIn t m w b pos = c at h
    cases c with
    | ub u => cases h
    | trap => cases h
    | ok c =>
    rw [Outcome.bind_ok] at h
    generalize hcs : Transform.loadIns t m w pos bs = r at h
    cases r with
    | ub u => cases h
    | trap => cases h
    | ok r =>
    rw [Outcome.bind_ok] at h
    injection h with h; subst h
    obtain ⟨l1, a1, a2, a3, a4, a5⟩ := emitIn_sim (σ := σ) (hb b (by simp)) hc
    obtain ⟨l2, b1, b2, b3, b4, b5, b6⟩ := ih (fun b hx => hb b (by simp [hx])) hcs
    refine ⟨l1 ++ l2, ?_, ?_, ?_, ?_, by simp [b5], ?_⟩
    · rw [emitIns, a1, Outcome.bind_ok, b1, Outcome.bind_ok]
    · rw [storesOf_append, a2, b2]; rfl
    · intro a ha
      rw [loadsOf_append, List.mem_append] at ha
      rcases ha with ha | ha
      · exact a3 a ha
      · exact b3 a ha
    · intro c' hc'
      rcases List.mem_cons.1 hc' with rfl | hc'
      · exact a4
      · exact b4 c' hc'
    · intro l
      rw [exec_append, a5, Outcome.bind_ok, b6]; simp

theorem emitLoads_sim {t : TEnv} {op : VecOp α α} {m : List α} {w k : Nat} {p1 p2 : Int} {vs : List (List α)}
    (h : Transform.unrollLoads t op m w k p1 p2 = .ok vs) :
    ∃ ls, emitLoads t op w k p1 p2 = .ok ls ∧ storesOf ls = [] ∧ (∀ a ∈ loadsOf ls, Inside t a) ∧
      (∀ v ∈ vs, v.length = w) ∧ vs.length = k ∧
      ∀ l : Local Unit α, l.args = [] → exec ls l m = .ok (⟨l.st, [], l.res ++ vs.flatten⟩, m) := by
  induction k generalizing p1 p2 vs with
  | zero =>
    simp only [Transform.unrollLoads] at h; injection h with h; subst h
    refine ⟨[], rfl, rfl, by simp [loadsOf], by simp, rfl, fun l hl => ?_⟩
    cases l; simp_all [exec]
  | succ k ih =>
    simp only [Transform.unrollLoads] at h
    generalize hv : Transform.loadAndInvoke t op m w p1 p2 = v at h
    cases v with
    | ub u => cases h
    | trap => cases h
    | ok v =>
    rw [Outcome.bind_ok] at h
    generalize hvs : Transform.unrollLoads t op m w k (p1 + w) (p2 + w) = r at h
    cases r with
    | ub u => cases h
    | trap => cases h
    | ok r =>
    rw [Outcome.bind_ok] at h
    injection h with h; subst h
    obtain ⟨l2, b1, b2, b3, b4, b5, b6⟩ := ih hvs
    unfold Transform.loadAndInvoke at hv
    unfold emitLoads
    generalize hins : t.ins = ins at hv
    cases ins with
    | nil => cases hv
    | cons b bs =>
    simp only at hv ⊢
    generalize hc : Transform.loadIn t m w b p1 = c at hv
    cases c with
    | ub u => cases hv
    | trap => cases hv
    | ok c =>
    rw [Outcome.bind_ok] at hv
    generalize hcs : Transform.loadIns t m w p2 bs = cs at hv
    cases cs with
    | ub u => cases hv
    | trap => cases hv
    | ok cs =>
    rw [Outcome.bind_ok] at hv
    injection hv with hv
    obtain ⟨l0, a1, a2, a3, a4, a5⟩ := emitIn_sim (σ := Unit) (by rw [hins]; simp) hc
    obtain ⟨l1, c1, c2, c3, c4, c5, c6⟩ := emitIns_sim (σ := Unit) (fun b hx => by rw [hins]; simp [hx]) hcs
    have hall : ∀ v ∈ c :: cs, v.length = w := by
      intro v hv
      rcases List.mem_cons.1 hv with rfl | hv
      · exact a4
      · exact c4 v hv
    refine ⟨_, by rw [a1, Outcome.bind_ok, c1, Outcome.bind_ok, b1, Outcome.bind_ok], ?_, ?_, ?_, by simp [b5], ?_⟩
    · rw [storesOf_append, storesOf_append, a2, c2, storesOf, b2]; rfl
    · intro a ha
      rw [loadsOf_append, loadsOf_append, List.mem_append, List.mem_append] at ha
      rcases ha with (ha | ha) | ha
      · exact a3 a ha
      · exact c3 a ha
      · exact b3 a ha
    · intro v' hv'
      rcases List.mem_cons.1 hv' with rfl | hv'
      · rw [← hv]; exact op.shape w _ (by simp) hall
      · exact b4 v' hv'
    · intro l hl
      rw [exec_append, exec_append, a5, Outcome.bind_ok, c6, Outcome.bind_ok, exec, step]
      have : cut w (bs.length + 1) (l.args ++ c ++ cs.flatten) = c :: cs := by
        rw [hl, List.nil_append, ← List.flatten_cons, ← c5, ← List.length_cons (a := c)]
        exact cut_flatten hall
      simp only [Outcome.bind_ok, this, hv]
      rw [b6 _ rfl]; simp

theorem unrollStores_inv {t : TEnv} {aligned : Bool} {w : Nat} {vs : List (List α)} {p : Nat} {m m' : List α}
    (hv : ∀ v ∈ vs, v.length = w) (h : Transform.unrollStores t aligned w vs (p : Int) m = .ok m') :
    m' = writeAt m (t.out + p) vs.flatten ∧ (vs ≠ [] → t.out + p + vs.flatten.length ≤ m.length) ∧
    (∀ i, i < vs.length → ForEach.inRange t.n ((p + i * w : Nat) : Int) w = true ∧
      (aligned = true → ForEach.alignedAt t.e ((p + i * w : Nat) : Int) w = true)) := by
  induction vs generalizing p m with
  | nil => simp only [Transform.unrollStores] at h; injection h with h; subst h; simp
  | cons v vs ih =>
    simp only [Transform.unrollStores, Transform.storeOut] at h
    by_cases h1 : (ForEach.inRange t.n (p : Int) w && ForEach.inRange m.length ((t.out : Int) + p) w) = true
    · rw [h1] at h
      simp only [Bool.not_true, Bool.false_eq_true, if_false] at h
      by_cases h2 : (aligned && !ForEach.alignedAt t.e (p : Int) w) = true
      · rw [if_pos h2] at h; cases h
      · rw [if_neg h2, Outcome.bind_ok, ← Int.natCast_add, ← Int.natCast_add, Int.toNat_natCast] at h
        have hvw : v.length = w := hv v (by simp)
        have hw : m.take (t.out + p) ++ v ++ m.drop (t.out + p + w) = writeAt m (t.out + p) v := by simp [writeAt, hvw]
        rw [Bool.and_eq_true] at h1
        have hp : t.out + p + v.length ≤ m.length := by
          have := h1.2
          simp only [ForEach.inRange, decide_eq_true_eq] at this; omega
        rw [hw] at h
        obtain ⟨g1, g2, g3⟩ := ih (fun v hv' => hv v (by simp [hv'])) h
        rw [writeAt_length _ _ _ hp] at g2
        have hlen : t.out + p + (v :: vs).flatten.length ≤ m.length := by
          by_cases hn : vs = []
          · subst hn; simpa using hp
          · have := g2 hn; simp only [List.flatten_cons, List.length_append]; omega
        refine ⟨?_, fun _ => hlen, ?_⟩
        · rw [g1, ← hvw, ← Nat.add_assoc, writeAt_writeAt, List.flatten_cons]
          simp only [List.flatten_cons, List.length_append] at hlen; omega
        · intro i hi
          cases i with
          | zero =>
            simp only [Nat.zero_mul, Nat.add_zero]
            refine ⟨h1.1, fun ha => ?_⟩
            cases hx : ForEach.alignedAt t.e (p : Int) w
            · exact absurd (by rw [ha, hx]; rfl) h2
            · rfl
          | succ i =>
            have := g3 i (by simpa using hi)
            rw [Nat.succ_mul, show p + (i * w + w) = p + w + i * w by omega]; exact this
    · rw [Bool.not_eq_true] at h1
      rw [h1] at h
      cases h

/-- What holds after the first `p` elements of a `transform`. -/
structure SimT (t : TEnv) (mem : List α) (p : Nat) (m : List α) (acc : List (Instr Unit α)) : Prop where
  loads : ∀ a ∈ loadsOf acc, Inside t a
  stores : storesOf acc = List.range' t.out p
  run : exec acc ⟨(), [], []⟩ mem = .ok (⟨(), [], []⟩, m)
  len : m.length = mem.length

theorem emitChunks_sim {t : TEnv} {op : VecOp α α} {mem : List α} (hm : t.out + t.n ≤ mem.length) {p : Nat} {m m' : List α}
    {acc : List (Instr Unit α)} (h : SimT t mem p m acc) {w : Nat} {aligned : Bool} {k : Nat} (hp : p + w * k ≤ t.n)
    (hr : Transform.chunks0 t op w aligned k (p : Int) (p : Int) (p : Int) m = .ok m') :
    ∃ acc', emitChunks t op w aligned k (p : Int) (p : Int) (p : Int) acc = .ok acc' ∧ SimT t mem (p + w * k) m' acc' := by
  unfold Transform.chunks0 at hr
  generalize hv : Transform.unrollLoads t op m w k (p : Int) (p : Int) = vs at hr
  cases vs with
  | ub u => cases hr
  | trap => cases hr
  | ok vs =>
  rw [Outcome.bind_ok] at hr
  obtain ⟨ls, a1, a2, a3, a4, a5, a6⟩ := emitLoads_sim hv
  obtain ⟨b1, b2, b3⟩ := unrollStores_inv a4 hr
  rw [a5] at b3
  have hss : accesses t.e (Instr.store (σ := Unit) (α := α)) t.out t.n aligned w k (p : Int) = .ok (each .store (t.out + p) (w * k)) :=
    accesses_ok _ t.out k p b3
  have hfl := flatten_length a4
  rw [a5] at hfl
  refine ⟨acc ++ (ls ++ each .store (t.out + p) (w * k)), by rw [emitChunks, a1, Outcome.bind_ok, hss, Outcome.bind_ok], ?_, ?_, ?_, ?_⟩
  · intro a ha
    rw [loadsOf_append, loadsOf_append, loadsOf_each_store, List.append_nil, List.mem_append] at ha
    rcases ha with ha | ha
    · exact h.loads a ha
    · exact a3 a ha
  · rw [storesOf_append, storesOf_append, a2, storesOf_each_store, h.stores, List.nil_append, List.range'_append_1]
  · rw [exec_append, h.run, Outcome.bind_ok, exec_append, a6 _ rfl, Outcome.bind_ok, ← hfl,
      exec_each_store _ _ vs.flatten [] (by simp) _ (by rw [h.len]; omega), b1]
  · rw [b1, writeAt_length _ _ _ (by rw [h.len]; omega), h.len]

theorem transformProgram_sim {t : TEnv} (wf : t.e.WF) (hce : t.e.constEval = false) (hpt : t.e.strictPtr = false) (hf : t.e.Fits t.n)
    (hp : t.n = 0 ∨ proCount t.e t.n ≤ t.n) (ha : t.e.pol.assumeMatchingSize = true → t.e.size ∣ t.n) (op : VecOp α α) (mem : List α)
    (hm : t.out + t.n ≤ mem.length) {r : Int × List α} (hr : Transform.transform t op mem = .ok r) :
    ∃ prog, transformProgram t op = .ok prog ∧ SimT t mem t.n r.2 prog := by
  have hst : t.e.strictPtr = true → t.n = 0 ∨ (t.e.size ≤ t.n ∧ (1 < t.e.pol.unrollBy → t.e.size * unroll t.e ≤ t.n)) := by simp [hpt]
  rw [Transform.transform_eq_transformG, Transform.transformG_trace wf hce hf hp hst ha] at hr
  generalize hg : runGroups (Transform.atPos (Transform.chunks0 t op)) 0 (Transform.groupsOf t.e t.n) mem = g at hr
  cases g with
  | ub u => cases hr
  | trap => cases hr
  | ok m =>
  rw [Outcome.bind_ok] at hr
  injection hr with hr; subst hr
  have h0 : SimT t mem 0 mem ([] : List (Instr Unit α)) := ⟨by simp [loadsOf], rfl, rfl, rfl⟩
  have hspan := Transform.groupsOf_span hp
  obtain ⟨prog, h1, h2⟩ := runGroups_sim (R := fun p m acc => SimT t mem p m acc) (n := t.n)
    (inv' := Transform.atPos (emitChunks t op))
    (fun g p st acc st' hp hR hi => emitChunks_sim hm hR hp hi) (by omega) h0 hg
  rw [hspan, Nat.zero_add] at h2
  refine ⟨prog, ?_, h2⟩
  rw [transformProgram, Transform.transformG_trace wf hce hf hp hst ha, h1, Outcome.bind_ok, Outcome.bind_ok]

end Vir.Threads
