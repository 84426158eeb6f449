import Verif.Model.ConcurrentStruct
import Verif.Lemmas.ConcurrentPrograms
import Verif.Lemmas.ForEachStruct
import Verif.Lemmas.ArrayAlgorithms

/-! Lemmas about the member accesses of `for_each` on arrays of structs. -/

namespace Vir.Threads
open Spec ForEachStruct

variable {σ α : Type} {c : Nat} {F : Family}

theorem flat_split (xs : List (Vector α c)) (p : Nat) (hp : p ≤ xs.length) :
    (flat xs).take (p * c) = flat (xs.take p) ∧ (flat xs).drop (p * c) = flat (xs.drop p) := by
  have h : flat xs = flat (xs.take p) ++ flat (xs.drop p) := by rw [← flat_append, List.take_append_drop]
  have hl : (flat (xs.take p)).length = p * c := by rw [flat_length, List.length_take, Nat.min_eq_left hp]
  rw [h, ← hl, List.take_left, List.drop_left]
  exact ⟨rfl, rfl⟩

theorem flat_slice (xs : List (Vector α c)) (p m : Nat) (h : p + m ≤ xs.length) :
    ((flat xs).drop (p * c)).take (m * c) = flat ((xs.drop p).take m) := by
  rw [(flat_split xs p (by omega)).2, (flat_split (xs.drop p) m (by simp; omega)).1]

theorem flat_writeAt (xs v : List (Vector α c)) (p : Nat) (h : p + v.length ≤ xs.length) :
    flat (writeAt xs p v) = writeAt (flat xs) (p * c) (flat v) := by
  unfold writeAt
  rw [flat_append, flat_append, (flat_split xs p (by omega)).1, flat_length, ← Nat.add_mul, (flat_split xs (p + v.length) h).2]

/-- Every array of members is an array of structs. -/
theorem exists_flat (n : Nat) (mem : List α) (h : mem.length = n * c) : ∃ xs : List (Vector α c), flat xs = mem ∧ xs.length = n := by
  induction n generalizing mem with
  | zero => exact ⟨[], by simp [List.eq_nil_of_length_eq_zero (by simpa using h)], rfl⟩
  | succ n ih =>
    rw [Nat.succ_mul] at h
    obtain ⟨xs, h1, h2⟩ := ih (mem.drop c) (by simp; omega)
    refine ⟨⟨(mem.take c).toArray, by simp; omega⟩ :: xs, ?_, by simp [h2]⟩
    rw [flat_cons, h1]
    simp

theorem accessesS_ok {n w : Nat} (mk : Nat → Instr σ α) (base : Nat) (k p : Nat)
    (h : ∀ i, i < k → ForEach.inRange n ((p + i * w : Nat) : Int) w = true) :
    accessesS c mk base n w k (p : Int) = .ok (each mk (base + p * c) (w * k * c)) := by
  induction k generalizing p with
  | zero => simp [accessesS, each]
  | succ k ih =>
    have h0 := h 0 (by omega)
    simp only [Nat.zero_mul, Nat.add_zero] at h0
    have := ih (p + w) fun i hi => by
      have := h (i + 1) (by omega)
      rw [Nat.succ_mul] at this
      rw [show p + w + i * w = p + (i * w + w) by omega]; exact this
    simp only [accessesS, h0, Bool.not_true, Bool.false_eq_true, if_false]
    rw [← Int.natCast_add, this, Outcome.bind_ok, Int.toNat_natCast]
    congr 1
    unfold each
    rw [Nat.mul_succ, Nat.add_comm (w * k) w, Nat.add_mul w, List.range_add, List.map_append, List.map_map]
    congr 1
    refine List.map_congr_left fun i _ => ?_
    simp only [Function.comp_apply]
    congr 1
    rw [Nat.add_mul]; omega

/-- What holds after the first `p` structs. -/
structure SimS (wb : Bool) (base n : Nat) (s : σ) (mem : List α) (p : Nat) (st : σ × List (Vector α c)) (acc : List (Instr σ α)) : Prop where
  loads : loadsOf acc = List.range' base (p * c)
  stores : storesOf acc = if wb then List.range' base (p * c) else []
  run : exec acc ⟨s, [], []⟩ mem = .ok (⟨st.1, [], []⟩, writeAt mem base (flat st.2))
  len : st.2.length = n

/-- The invocation on a copy. -/
theorem invokeCopy_eq {e : Env} {zero : α} {junk : Nat → α} (hF : F.WF c) (ha : AlwaysAligned e) (wb : Bool) (f : SCallable σ α c) {w k : Nat}
    (hw : 0 < w) (s : σ) (xs : List (Vector α c)) (hx : xs.length = w * k) :
    invokeCopy F zero junk wb f w k s (flat xs) =
      (((onStructs F zero f).call s (cut w k xs)).1, if wb then flat ((onStructs F zero f).call s (cut w k xs)).2.flatten else []) := by
  have hl : ForEach.loadAll e xs false w k 0 = .ok (cut w k xs) := by
    have h1 := Vir.loadAll_eq e false w k [] xs (by simp) (by omega)
    simp only [List.nil_append, List.length_nil, Int.natCast_zero] at h1
    obtain ⟨_, h2⟩ := loadAll_inv (p := 0) h1
    have h3 := slice_chunks xs 0 w k (by omega)
    rw [List.drop_zero, List.take_of_length_le (by omega)] at h3
    rw [h3, ← h2]
    exact h1
  obtain ⟨hlen, hws⟩ := loadAll_ok_length hl
  have hwr := onStructs_lengths (F := F) zero f s hws
  have hkr : ((onStructs F zero f).call s (cut w k xs)).2.length = k := by
    have := congrArg List.length ((onStructs F zero f).shape s (cut w k xs))
    rw [List.length_map, List.length_map] at this
    rw [this, hlen]
  have hs : ForEach.storeAll e false w ((onStructs F zero f).call s (cut w k xs)).2 0 xs =
      .ok ((onStructs F zero f).call s (cut w k xs)).2.flatten := by
    have h1 := Vir.storeAll_eq e false w ((onStructs F zero f).call s (cut w k xs)).2 [] xs (by simp)
      (List.eq_replicate_iff.2 ⟨by simp, fun b hb => by
        obtain ⟨x, h2, rfl⟩ := List.mem_map.1 hb
        exact hwr x h2⟩) (by rw [hkr]; omega)
    simp only [List.nil_append, List.length_nil, Int.natCast_zero] at h1
    rw [hkr, List.drop_of_length_le (by omega), List.append_nil] at h1
    exact h1
  have hsim := invSim_struct (zero := zero) (junk := junk) hF ha w wb f w false k 0 (s, xs) hw (Nat.le_refl _)
  unfold invokeCopy
  cases wb with
  | false =>
    have : ForEach.loadAndInvoke e false (onStructs F zero f) w false k 0 (s, xs) =
        .ok (((onStructs F zero f).call s (cut w k xs)).1, xs) := by
      unfold ForEach.loadAndInvoke
      simp only [hl, Outcome.bind_ok, Bool.false_eq_true, if_false]
    have h2 := hsim.of_ok this
    simp only [flatSt] at h2
    rw [h2]
    rfl
  | true =>
    have : ForEach.loadAndInvoke e true (onStructs F zero f) w false k 0 (s, xs) =
        .ok (((onStructs F zero f).call s (cut w k xs)).1, ((onStructs F zero f).call s (cut w k xs)).2.flatten) := by
      unfold ForEach.loadAndInvoke
      simp only [hl, Outcome.bind_ok, if_true, hs]
    have h2 := hsim.of_ok this
    simp only [flatSt] at h2
    rw [h2]

theorem emitInvokeS_sim {e : Env} {zero : α} {junk : Nat → α} (hF : F.WF c) (hal : AlwaysAligned e) {wb : Bool} {f : SCallable σ α c}
    {base n : Nat} {s : σ} {mem : List α} (hm : base + n * c ≤ mem.length) {p : Nat} {st st' : σ × List (Vector α c)}
    {acc : List (Instr σ α)} (h : SimS wb base n s mem p st acc) {w : Nat} (hw : 0 < w) {aligned : Bool} {k : Nat} (hp : p + w * k ≤ n)
    (hr : ForEach.loadAndInvoke e wb (onStructs F zero f) w aligned k (p : Int) st = .ok st') :
    ∃ acc', emitInvokeS F zero junk wb f base n w aligned k (p : Int) acc = .ok acc' ∧ SimS wb base n s mem (p + w * k) st' acc' := by
  unfold ForEach.loadAndInvoke at hr
  generalize hc : ForEach.loadAll e st.2 aligned w k (p : Int) = cs at hr
  cases cs with
  | ub u => cases hr
  | trap => cases hr
  | ok cs =>
  rw [Outcome.bind_ok] at hr
  obtain ⟨hin, hcs⟩ := loadAll_inv hc
  obtain ⟨hklen, hlens⟩ := loadAll_ok_length hc
  rw [h.len] at hin
  have hls : accessesS c (Instr.load (σ := σ) (α := α)) base n w k (p : Int) = .ok (each .load (base + p * c) (w * k * c)) :=
    accessesS_ok _ base k p fun i hi => (hin i hi).1
  have hss : accessesS c (Instr.store (σ := σ) (α := α)) base n w k (p : Int) = .ok (each .store (base + p * c) (w * k * c)) :=
    accessesS_ok _ base k p fun i hi => (hin i hi).1
  have hsl : ((st.2.drop p).take (w * k)).length = w * k := by simp [h.len]; omega
  have hcut : cut w k ((st.2.drop p).take (w * k)) = cs := by rw [slice_chunks _ _ _ _ (by rw [h.len]; exact hp), hcs]
  have hcopy := invokeCopy_eq (zero := zero) (junk := junk) hF hal wb f hw st.1 _ hsl
  rw [hcut] at hcopy
  have hpc : p * c + w * k * c ≤ n * c := by rw [← Nat.add_mul]; exact Nat.mul_le_mul_right _ hp
  have hfl0 : (flat st.2).length = n * c := by rw [flat_length, h.len]
  have hwl : (writeAt mem base (flat st.2)).length = mem.length := writeAt_length _ _ _ (by omega)
  have hload (l : Local σ α) : exec (each .load (base + p * c) (w * k * c)) l (writeAt mem base (flat st.2)) =
      .ok (⟨l.st, l.args ++ flat ((st.2.drop p).take (w * k)), l.res⟩, writeAt mem base (flat st.2)) := by
    rw [exec_each_load _ _ _ _ (by rw [hwl]; omega), slice_inside _ _ _ _ _ (by omega) (by omega),
      flat_slice _ _ _ (by rw [h.len]; exact hp)]
  have hloads : loadsOf acc ++ List.range' (base + p * c) (w * k * c) = List.range' base ((p + w * k) * c) := by
    rw [h.loads, List.range'_append_1, Nat.add_mul]
  cases wb with
  | false =>
    simp only [Bool.false_eq_true, if_false] at hr
    injection hr with hr
    subst hr
    refine ⟨acc ++ (each .load (base + p * c) (w * k * c) ++ [.call (invokeCopy F zero junk false f w k)]), ?_, ?_, ?_, ?_, h.len⟩
    · simp [emitInvokeS, hls]
    · rw [loadsOf_append, loadsOf_append, loadsOf_each_load]; simpa [loadsOf] using hloads
    · rw [storesOf_append, storesOf_append, storesOf_each_load, h.stores]; simp [storesOf]
    · rw [exec_append, h.run, Outcome.bind_ok, exec_append, hload, Outcome.bind_ok]
      simp [exec, step, hcopy]
  | true =>
    simp only [if_true] at hr
    generalize hst : ForEach.storeAll e aligned w ((onStructs F zero f).call st.1 cs).2 (p : Int) st.2 = r at hr
    cases r with
    | ub u => cases hr
    | trap => cases hr
    | ok ys =>
    rw [Outcome.bind_ok] at hr
    injection hr with hr
    have hlen : ((onStructs F zero f).call st.1 cs).2.length = k := by
      have := congrArg List.length ((onStructs F zero f).shape st.1 cs)
      rw [List.length_map, List.length_map] at this
      rw [this, hklen]
    have hws := onStructs_lengths (F := F) zero f st.1 hlens
    obtain ⟨hy, _⟩ := storeAll_inv hws hst
    have hfl := flatten_length hws
    rw [hlen] at hfl
    subst hy; subst hr
    have hflf : (flat ((onStructs F zero f).call st.1 cs).2.flatten).length = w * k * c := by rw [flat_length, hfl]
    refine ⟨acc ++ (each .load (base + p * c) (w * k * c) ++
      (.call (invokeCopy F zero junk true f w k)) :: each .store (base + p * c) (w * k * c)), ?_, ?_, ?_, ?_, ?_⟩
    · simp [emitInvokeS, hls, hss]
    · rw [loadsOf_append, loadsOf_append, loadsOf_each_load, loadsOf, loadsOf_each_store]; simpa using hloads
    · rw [storesOf_append, storesOf_append, storesOf_each_load, storesOf, storesOf_each_store, h.stores]
      simp [List.range'_append_1, Nat.add_mul]
    · rw [exec_append, h.run, Outcome.bind_ok, exec_append, hload, Outcome.bind_ok, exec]
      simp only [step, List.nil_append, hcopy, Outcome.bind_ok, if_true]
      rw [← hflf, exec_each_store _ _ (flat ((onStructs F zero f).call st.1 cs).2.flatten) [] (by simp) _ (by rw [hwl]; omega),
        writeAt_inside _ _ _ _ _ (by omega) (by omega), flat_writeAt _ _ _ (by rw [h.len, hfl]; exact hp)]
    · rw [writeAt_length _ _ _ (by rw [h.len]; omega), h.len]

theorem runGroups_sim_mem {S T : Type} {inv : Group → Nat → S → Outcome S} {inv' : Group → Nat → T → Outcome T} {R : Nat → S → T → Prop} {n : Nat}
    {gs : List Group} (hstep : ∀ g ∈ gs, ∀ p s t s', p + g.elems ≤ n → R p s t → inv g p s = .ok s' → ∃ t', inv' g p t = .ok t' ∧ R (p + g.elems) s' t')
    {p : Nat} {s s' : S} {t : T} (hp : p + span gs ≤ n) (hR : R p s t) (h : runGroups inv p gs s = .ok s') :
    ∃ t', runGroups inv' p gs t = .ok t' ∧ R (p + span gs) s' t' := by
  induction gs generalizing p s t with
  | nil => simp only [runGroups] at h; injection h with h; subst h; exact ⟨t, rfl, by simpa [span] using hR⟩
  | cons g gs ih =>
    rw [span_cons] at hp
    simp only [runGroups] at h
    generalize hi : inv g p s = r at h
    cases r with
    | ub u => cases h
    | trap => cases h
    | ok s1 =>
      rw [Outcome.bind_ok] at h
      obtain ⟨t1, h1, h2⟩ := hstep g (by simp) p s t s1 (by omega) hR hi
      obtain ⟨t', h3, h4⟩ := ih (fun g hg => hstep g (by simp [hg])) (by omega) h2 h
      refine ⟨t', by simp only [runGroups]; rw [h1, Outcome.bind_ok, h3], ?_⟩
      rw [span_cons, ← Nat.add_assoc]; exact h4

theorem writeAt_slice (mem : List α) (base m : Nat) (h : base + m ≤ mem.length) : writeAt mem base (slice mem base m) = mem := by
  have hl := slice_length mem base m h
  apply List.ext_getElem?
  intro j
  rw [writeAt_get _ _ _ (by omega), slice_get, hl]
  by_cases h1 : j < base
  · rw [if_pos h1]
  · rw [if_neg h1]
    by_cases h2 : j < base + m
    · rw [if_pos h2, if_pos (by omega)]; congr 1; omega
    · rw [if_neg h2]

theorem forEachStructProgram_sim {e : Env} {zero : α} {junk : Nat → α} (hF : F.WF c) (hal : AlwaysAligned e) (wf : e.WF)
    (hce : e.constEval = false) (hpt : e.strictPtr = false) {n : Nat} (hf : e.Fits n) (hp : n = 0 ∨ proCount e n ≤ n)
    (ha : e.pol.assumeMatchingSize = true → e.size ∣ n) (wb : Bool) (f : SCallable σ α c) (s : σ) (base : Nat) (mem : List α)
    (hm : base + n * c ≤ mem.length) {xs : List (Vector α c)} (hx : flat xs = slice mem base (n * c)) (hn : xs.length = n)
    {r : σ × List (Vector α c)} (hr : ForEach.forEach e wb (onStructs F zero f) s xs = .ok r) :
    ∃ prog, forEachStructProgram e F zero junk wb f base n = .ok prog ∧ SimS wb base n s mem n r prog := by
  have hst : e.strictPtr = true → n = 0 ∨ (e.size ≤ n ∧ (1 < e.pol.unrollBy → e.size * unroll e ≤ n)) := by simp [hpt]
  rw [ForEach.forEach_eq_forEachG, hn, ForEach.forEachG_trace wf hce hf hp hst ha] at hr
  have h0 : SimS wb base n s mem 0 (s, xs) ([] : List (Instr σ α)) := by
    refine ⟨by simp [loadsOf], by cases wb <;> simp [storesOf], ?_, hn⟩
    rw [exec]
    simp only [hx, writeAt_slice _ _ _ hm]
  have hspan := Transform.groupsOf_span hp
  obtain ⟨prog, h1, h2⟩ := runGroups_sim_mem (R := fun p st acc => SimS wb base n s mem p st acc) (n := n)
    (inv' := ForEach.atPos (emitInvokeS F zero junk wb f base n))
    (fun g hg p st acc st' hp hR hi => emitInvokeS_sim hF hal hm hR (groupsOf_widths wf g hg).1 hp hi) (by omega) h0 hr
  rw [hspan, Nat.zero_add] at h2
  refine ⟨prog, ?_, h2⟩
  rw [forEachStructProgram, ForEach.forEachG_trace wf hce hf hp hst ha, h1]

end Vir.Threads
