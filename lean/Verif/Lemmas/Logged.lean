import Verif.Lemmas.ForEachOob

namespace Vir
open Spec ForEach

variable {σ α : Type}

/-- What the instrumented callable records. -/
def eventsOf (f : Callable σ α) : List Call → σ → List α → List (Event α)
  | [], _, _ => []
  | c :: cs, s, xs =>
    ⟨chunks c.w c.k xs, (f.call s (chunks c.w c.k xs)).2⟩ ::
      eventsOf f cs (f.call s (chunks c.w c.k xs)).1 (xs.drop c.elems)

theorem run_logged (f : Callable σ α) (wb : Bool) (cs : List Call) (s : σ) (l : List (Event α)) (xs : List α) :
    run (logged f) wb cs (s, l) xs =
      (((run f wb cs s xs).1, l ++ eventsOf f cs s xs), (run f wb cs s xs).2) := by
  induction cs generalizing s l xs with
  | nil => simp [run, eventsOf]
  | cons c cs ih =>
    have hc : (logged f).call (s, l) (chunks c.w c.k xs) =
      (((f.call s (chunks c.w c.k xs)).1,
        l ++ [⟨chunks c.w c.k xs, (f.call s (chunks c.w c.k xs)).2⟩]), (f.call s (chunks c.w c.k xs)).2) := rfl
    simp only [run, hc, ih, eventsOf]
    simp

theorem visited_eventsOf (f : Callable σ α) (cs : List Call) (s : σ) (xs : List α) :
    visited (eventsOf f cs s xs) = xs.take (elems cs) := by
  induction cs generalizing s xs with
  | nil => simp [eventsOf, visited]
  | cons c cs ih =>
    have := ih (f.call s (chunks c.w c.k xs)).1 (xs.drop c.elems)
    simp only [visited] at this
    simp only [eventsOf, visited, List.map_cons, List.flatten_cons, this, chunks_flatten, elems_cons]
    rw [List.take_add]
    simp [Call.elems]

theorem produced_eventsOf (f : Callable σ α) (cs : List Call) (s : σ) (xs : List α)
    (h : elems cs = xs.length) : produced (eventsOf f cs s xs) = (run f true cs s xs).2 := by
  induction cs generalizing s xs with
  | nil =>
    simp at h
    simp [eventsOf, produced, run, List.length_eq_zero_iff.1 h.symm]
  | cons c cs ih =>
    simp only [elems_cons] at h
    have := ih (f.call s (chunks c.w c.k xs)).1 (xs.drop c.elems) (by simp; omega)
    simp only [produced] at this
    simp [eventsOf, produced, run, this]

theorem shapes_eventsOf (f : Callable σ α) (cs : List Call) (s : σ) (xs : List α)
    (h : elems cs ≤ xs.length) : shapes (eventsOf f cs s xs) = cs.map fun c => List.replicate c.k c.w := by
  induction cs generalizing s xs with
  | nil => rfl
  | cons c cs ih =>
    simp only [elems_cons] at h
    have := ih (f.call s (chunks c.w c.k xs)).1 (xs.drop c.elems) (by simp; omega)
    simp only [shapes] at this
    simp only [eventsOf, shapes, List.map_cons, this]
    rw [chunks_map_length _ _ _ (by unfold Call.elems at h; omega)]

theorem run_false_snd (f : Callable σ α) (cs : List Call) (s : σ) (xs : List α) (h : elems cs ≤ xs.length) :
    (run f false cs s xs).2 = xs := by
  induction cs generalizing s xs with
  | nil => rfl
  | cons c cs ih =>
    simp only [elems_cons] at h
    have := ih (f.call s (chunks c.w c.k xs)).1 (xs.drop c.elems) (by simp; omega)
    simp [run, this]

theorem run_map (f : Callable σ α) (g : α → α) (hf : ∀ s cs, (f.call s cs).2 = cs.map (List.map g))
    (cs : List Call) (s : σ) (xs : List α) (h : elems cs = xs.length) :
    (run f true cs s xs).2 = xs.map g := by
  induction cs generalizing s xs with
  | nil => simp at h; simp [run, List.length_eq_zero_iff.1 h.symm]
  | cons c cs ih =>
    simp only [elems_cons] at h
    have := ih (f.call s (chunks c.w c.k xs)).1 (xs.drop c.elems) (by simp; omega)
    simp only [run, this, hf, if_true]
    rw [← List.map_flatten, chunks_flatten, ← List.map_append]
    simp [Call.elems]

theorem reaches_iff {e : Env} (wf : e.WF) {n : Nat} :
    ReachesAlignment e n ↔ (n = 0 ∨ proCount e n ≤ n) := by
  have hsz := wf.sz_pos
  by_cases hu : useAligned e = true
  · have hu' := hu
    simp only [useAligned, Bool.and_eq_true] at hu'
    obtain ⟨h1, h2, h3⟩ := (prologuePossible_iff e).1 hu'.2
    obtain ⟨K, hK⟩ := proInfo wf hu'.2
    have : ReachesAlignment e n ↔ (n = 0 ∨ ∃ k, k ≤ n ∧ e.al e.size ∣ e.addr + k * e.sz) := by
      unfold ReachesAlignment
      exact ⟨fun h => h hu'.1 h1 h2 h3, fun h _ _ _ _ => h⟩
    rw [this]
    have hpal := (proCount_aligned wf n hu).2
    constructor
    · rintro (h | ⟨k, hk, hd⟩)
      · exact Or.inl h
      · right
        unfold proCount
        simp only [hu, Bool.true_or, if_true]
        by_cases hm : misalignedBytes e = 0
        · rw [if_pos hm]; omega
        · rw [if_neg hm]
          refine Nat.le_trans ?_ hk
          -- both k and tp are aligned; tp < 2^K, so k < tp is impossible
          apply Nat.le_of_not_lt
          intro hlt
          have htp := hK.tp_lt hm
          have hd2 : e.al e.size ∣ (toProcess e - k) * e.sz := by
            have h5 := hK.tp_al
            have : e.addr + toProcess e * e.sz = (e.addr + k * e.sz) + (toProcess e - k) * e.sz := by
              rw [Nat.add_assoc, ← Nat.add_mul]; congr 2; omega
            rw [this] at h5
            exact (Nat.dvd_add_right hd).1 h5
          rw [hK.al] at hd2
          have hd3 := Nat.dvd_of_mul_dvd_mul_right hsz hd2
          have hle := Nat.le_of_dvd (by omega) hd3
          -- so k = 0 and misalignment is zero
          have : toProcess e - k < 2 ^ K := by omega
          omega
    · rintro (h | h)
      · exact Or.inl h
      · exact Or.inr ⟨_, h, hpal⟩
  · have h1 : ReachesAlignment e n := by
      intro ha hb hc hd
      exfalso; apply hu
      simp only [useAligned, ha, Bool.true_and]
      exact (prologuePossible_iff e).2 ⟨hb, hc, hd⟩
    refine ⟨fun _ => Or.inr ?_, fun _ => h1⟩
    unfold proCount
    by_cases hm : (useAligned e || maybeAnyway e) = true
    · rw [if_pos hm]
      have hpp : prologuePossible e = true := by
        simp only [useAligned, maybeAnyway, Bool.or_eq_true, Bool.and_eq_true] at hm
        rcases hm with h | h <;> exact h.2
      obtain ⟨K, hK⟩ := proInfo wf hpp
      split
      · omega
      · split
        · rename_i hc
          rcases hc with hc | hc
          · have h4 := wf.al_le
            rw [hK.al] at h4
            have h5 : toProcess e * e.sz ≤ 2 ^ K * e.sz := Nat.mul_le_mul_right _ hK.tp_le
            exact Nat.le_of_lt (Nat.lt_of_mul_lt_mul_right (a := e.sz) (by omega))
          · exact and_eq_self_le hc
        · omega
    · rw [if_neg hm]; omega

theorem unrolledIters_le (e : Env) (m : Nat) : unrolledIters e m * (e.size * unroll e) ≤ m := by
  unfold unrolledIters
  split
  · exact Nat.div_mul_le_self _ _
  · simp

theorem elems_callsOf {e : Env} (_hs : 0 < e.size) {n : Nat} (h : n = 0 ∨ proCount e n ≤ n) : elems (callsOf e n) = n := by
  unfold callsOf
  split
  · rename_i h; simp [h]
  · have hp : proCount e n ≤ n := by omega
    simp only [elems_append, elems_singles, bitsAsc_sum, bitsDesc_sum, elems_replicate, Call.elems, Nat.mul_one]
    have h1 := unrolledIters_le e (n - proCount e n)
    generalize hq : unrolledIters e (n - proCount e n) * (e.size * unroll e) = x at h1
    have hd : e.size ∣ x := by
      rw [← hq]; exact Nat.dvd_trans (Nat.dvd_mul_right _ _) (Nat.dvd_mul_left _ _)
    obtain ⟨c, hc⟩ := hd
    have h2 : (n - proCount e n) % e.size = (n - proCount e n - x) % e.size := by
      conv => lhs; rw [show n - proCount e n = (n - proCount e n - x) + e.size * c by omega]
      exact Nat.add_mul_mod_self_left _ _ _
    rw [h2]
    have h3 := Nat.div_add_mod (n - proCount e n - x) e.size
    rw [Nat.mul_comm] at h3
    omega

end Vir
