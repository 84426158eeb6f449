import Verif.Spec.Concurrent
import Verif.Lemmas.ForEachTrace
import Verif.Lemmas.TransformGenEq

namespace Vir.Threads
open Spec

variable {σ α : Type}

/-! ### programs of a single thread -/

theorem loadsOf_append (p q : List (Instr σ α)) : loadsOf (p ++ q) = loadsOf p ++ loadsOf q := by
  induction p with
  | nil => rfl
  | cons i p ih => cases i <;> simp [loadsOf, ih]

theorem storesOf_append (p q : List (Instr σ α)) : storesOf (p ++ q) = storesOf p ++ storesOf q := by
  induction p with
  | nil => rfl
  | cons i p ih => cases i <;> simp [storesOf, ih]

theorem exec_append (p q : List (Instr σ α)) (l : Local σ α) (mem : List α) :
    exec (p ++ q) l mem = exec p l mem >>= fun r => exec q r.1 r.2 := by
  induction p generalizing l mem with
  | nil => rfl
  | cons i p ih => simp only [List.cons_append, exec, Outcome.bind_assoc, ih]

theorem step_length {i : Instr σ α} {l l' : Local σ α} {mem mem' : List α} (h : step i l mem = .ok (l', mem')) :
    mem'.length = mem.length := by
  cases i with
  | load a =>
    simp only [step] at h
    split at h
    · injection h with h; injection h with _ h; rw [h]
    · cases h
  | call f => simp only [step] at h; injection h with h; injection h with _ h; rw [h]
  | store a =>
    simp only [step] at h
    split at h
    · cases h
    · split at h
      · injection h with h; injection h with _ h; rw [← h]; simp
      · cases h

/-- A step does the same in two memories that agree where the step reads. -/
theorem step_agree {i : Instr σ α} {l l' : Local σ α} {m m' mem : List α} (h : step i l m = .ok (l', m'))
    (hlen : mem.length = m.length) (hag : ∀ a ∈ loadsOf [i], mem[a]? = m[a]?) :
    ∃ mem', step i l mem = .ok (l', mem') ∧ mem'.length = mem.length ∧
      (∀ a, a ∉ storesOf [i] → mem'[a]? = mem[a]? ∧ m'[a]? = m[a]?) ∧ (∀ a ∈ storesOf [i], mem'[a]? = m'[a]?) := by
  cases i with
  | load a =>
    simp only [step] at h
    split at h
    · rename_i x hx
      injection h with h; injection h with h1 h2
      subst h1; subst h2
      refine ⟨mem, ?_, rfl, fun _ _ => ⟨rfl, rfl⟩, by simp [storesOf]⟩
      simp only [step, hag a (by simp [loadsOf]), hx]
    · cases h
  | call f =>
    simp only [step] at h; injection h with h; injection h with h1 h2
    subst h1; subst h2
    exact ⟨mem, rfl, rfl, fun _ _ => ⟨rfl, rfl⟩, by simp [storesOf]⟩
  | store a =>
    simp only [step] at h
    split at h
    · cases h
    · rename_i x xs hr
      split at h
      · rename_i ha
        injection h with h; injection h with h1 h2
        subst h1; subst h2
        refine ⟨mem.set a x, ?_, by simp, ?_, ?_⟩
        · simp only [step, hr, hlen, if_pos ha]
        · intro b hb
          have hb : a ≠ b := fun h => hb (by simp [storesOf, h])
          rw [List.getElem?_set_ne hb, List.getElem?_set_ne hb]
          exact ⟨rfl, rfl⟩
        · intro b hb
          have hb : b = a := by simpa [storesOf] using hb
          subst hb
          rw [List.getElem?_set_self (by omega), List.getElem?_set_self ha]
      · cases h

theorem exec_length {p : List (Instr σ α)} {l : Local σ α} {mem : List α} {r : Local σ α × List α} (h : exec p l mem = .ok r) :
    r.2.length = mem.length := by
  induction p generalizing l mem with
  | nil => simp only [exec] at h; injection h with h; rw [← h]
  | cons i p ih =>
    simp only [exec] at h
    generalize hs : step i l mem = s at h
    cases s with
    | ok s => rw [Outcome.bind_ok] at h; rw [ih h, step_length hs]
    | ub u => cases h
    | trap => cases h

theorem exec_frame {p : List (Instr σ α)} {l : Local σ α} {mem : List α} {r : Local σ α × List α} (h : exec p l mem = .ok r) (a : Nat)
    (ha : a ∉ storesOf p) : r.2[a]? = mem[a]? := by
  induction p generalizing l mem with
  | nil => simp only [exec] at h; injection h with h; rw [← h]
  | cons i p ih =>
    simp only [exec] at h
    generalize hs : step i l mem = s at h
    cases s with
    | ok s =>
      rw [Outcome.bind_ok] at h
      have hsplit : storesOf (i :: p) = storesOf [i] ++ storesOf p := by rw [← storesOf_append]; rfl
      rw [hsplit, List.mem_append, not_or] at ha
      rw [ih h ha.2]
      obtain ⟨m', h1, _, h2, _⟩ := step_agree (mem := mem) hs rfl fun _ _ => rfl
      exact (h2 a ha.1).2
    | ub u => cases h
    | trap => cases h

/-- A program does the same in two memories that agree where it reads. -/
theorem exec_agree {p : List (Instr σ α)} {l : Local σ α} {m mem : List α} {r : Local σ α × List α} (h : exec p l m = .ok r)
    (hlen : mem.length = m.length) (hag : ∀ a, a ∈ loadsOf p ∨ a ∈ storesOf p → mem[a]? = m[a]?) :
    ∃ mem', exec p l mem = .ok (r.1, mem') ∧ mem'.length = mem.length ∧ (∀ a, a ∈ loadsOf p ∨ a ∈ storesOf p → mem'[a]? = r.2[a]?) := by
  suffices H : ∀ (q p : List (Instr σ α)) (l : Local σ α) (m mem : List α), exec p l m = .ok r → mem.length = m.length →
      (∀ i ∈ p, i ∈ q) → (∀ a, a ∈ loadsOf q ∨ a ∈ storesOf q → mem[a]? = m[a]?) →
      ∃ mem', exec p l mem = .ok (r.1, mem') ∧ mem'.length = mem.length ∧ (∀ a, a ∈ loadsOf q ∨ a ∈ storesOf q → mem'[a]? = r.2[a]?) from
    H p p l m mem h hlen (fun _ h => h) hag
  have hl : ∀ (q : List (Instr σ α)) (i : Instr σ α), i ∈ q → ∀ a ∈ loadsOf [i], a ∈ loadsOf q := by
    intro q i hi a ha
    obtain ⟨q1, q2, rfl⟩ := List.append_of_mem hi
    rw [show q1 ++ i :: q2 = q1 ++ ([i] ++ q2) from rfl, loadsOf_append, loadsOf_append]; simp [ha]
  intro q p
  induction p with
  | nil => intro l m mem h hlen _ hag; simp only [exec] at h; injection h with h; subst h; exact ⟨mem, rfl, rfl, hag⟩
  | cons i p ih =>
    intro l m mem h hlen hsub hag
    simp only [exec] at h
    generalize hs : step i l m = s at h
    cases s with
    | ub u => cases h
    | trap => cases h
    | ok s =>
      rw [Outcome.bind_ok] at h
      obtain ⟨mem1, g1, g2, g3, g4⟩ := step_agree (mem := mem) (l' := s.1) (m' := s.2) hs hlen
        fun a ha => hag a (Or.inl (hl q i (hsub i (by simp)) a ha))
      obtain ⟨mem', k1, k2, k3⟩ := ih s.1 s.2 mem1 h (by rw [g2, hlen, step_length (l' := s.1) (mem' := s.2) hs])
        (fun i hi => hsub i (by simp [hi])) (fun a ha => by
          by_cases hx : a ∈ storesOf [i]
          · exact g4 a hx
          · rw [(g3 a hx).1, (g3 a hx).2]; exact hag a ha)
      exact ⟨mem', by rw [exec, g1, Outcome.bind_ok, k1], by rw [k2, g2], k3⟩

/-- If no address is written twice, every element has at any time the old or the final value. -/
theorem exec_prefix {p q : List (Instr σ α)} {l : Local σ α} {mem : List α} {r s : Local σ α × List α}
    (hp : exec p l mem = .ok r) (hpq : exec (p ++ q) l mem = .ok s) (hn : (storesOf (p ++ q)).Nodup) (a : Nat) :
    r.2[a]? = mem[a]? ∨ r.2[a]? = s.2[a]? := by
  by_cases ha : a ∈ storesOf p
  · right
    rw [exec_append, hp, Outcome.bind_ok] at hpq
    rw [storesOf_append, List.nodup_append] at hn
    refine (exec_frame hpq a fun h => hn.2.2 a ha a h rfl).symm
  · left; exact exec_frame hp a ha

/-! ### threads -/

variable {ι : Type} [DecidableEq ι] {τ : ι → Type}

theorem update_self {β : ι → Type} (f : ∀ i, β i) (i : ι) (x : β i) : update f i x i = x := by simp [update]

theorem update_ne {β : ι → Type} (f : ∀ i, β i) {i j : ι} (h : i ≠ j) (x : β i) : update f i x j = f j := by simp [update, h]

/-- What holds of all reachable configurations. -/
structure Reach (P : ∀ i, List (Instr (τ i) α)) (L : ∀ i, Local (τ i) α) (mem : List α) (sched : List ι) (c : Config ι τ α) : Prop where
  len : c.mem.length = mem.length
  frame : ∀ a, (∀ i, a ∉ storesOf (P i)) → c.mem[a]? = mem[a]?
  prog : ∀ i, c.prog i = (P i).drop (sched.count i)
  alone : ∀ i, ∃ m, exec ((P i).take (sched.count i)) (L i) mem = .ok (c.loc i, m) ∧
    ∀ a, a ∈ loadsOf (P i) ∨ a ∈ storesOf (P i) → c.mem[a]? = m[a]?

theorem mem_loads_cons {i : Instr σ α} {p q : List (Instr σ α)} {a : Nat} (h : a ∈ loadsOf [i]) : a ∈ loadsOf (p ++ i :: q) := by
  have : loadsOf (p ++ i :: q) = loadsOf p ++ (loadsOf [i] ++ loadsOf q) := by
    rw [← loadsOf_append, ← loadsOf_append]; rfl
  rw [this]; simp [h]

theorem mem_stores_cons {i : Instr σ α} {p q : List (Instr σ α)} {a : Nat} (h : a ∈ storesOf [i]) : a ∈ storesOf (p ++ i :: q) := by
  have : storesOf (p ++ i :: q) = storesOf p ++ (storesOf [i] ++ storesOf q) := by
    rw [← storesOf_append, ← storesOf_append]; rfl
  rw [this]; simp [h]

theorem tick_reach {P : ∀ i, List (Instr (τ i) α)} {L : ∀ i, Local (τ i) α} {mem : List α} {sched : List ι} {c : Config ι τ α}
    (hind : ∀ i j, i ≠ j → ∀ a ∈ storesOf (P i), a ∉ loadsOf (P j) ∧ a ∉ storesOf (P j))
    (hsolo : ∀ i, ∃ r, exec (P i) (L i) mem = .ok r) (h : Reach P L mem sched c) (i : ι) :
    ∃ c', tick i c = .ok c' ∧ Reach P L mem (sched ++ [i]) c' := by
  have hcount (j : ι) : (sched ++ [i]).count j = sched.count j + if i = j then 1 else 0 := by
    rw [List.count_append, List.count_singleton]
    by_cases hj : i = j <;> simp [hj]
  have hpi := h.prog i
  unfold tick
  match hc : c.prog i with
  | [] =>
    refine ⟨c, rfl, h.len, h.frame, ?_, ?_⟩
    · intro j
      rw [hcount, h.prog j]
      split
      · rename_i hij; subst hij
        rw [hc] at hpi
        have : (P i).length ≤ sched.count i := List.drop_eq_nil_iff.1 hpi.symm
        rw [List.drop_eq_nil_iff.2 this, List.drop_eq_nil_iff.2 (by omega)]
      · rfl
    · intro j
      obtain ⟨m, h1, h2⟩ := h.alone j
      refine ⟨m, ?_, h2⟩
      rw [hcount, ← h1]
      split
      · rename_i hij; subst hij
        rw [hc] at hpi
        have : (P i).length ≤ sched.count i := List.drop_eq_nil_iff.1 hpi.symm
        rw [List.take_of_length_le this, List.take_of_length_le (by omega)]
      · rfl
  | x :: rest =>
    rw [hc] at hpi
    have hlt : sched.count i < (P i).length := by
      rcases Nat.lt_or_ge (sched.count i) (P i).length with h | h
      · exact h
      · rw [List.drop_eq_nil_iff.2 h] at hpi; cases hpi
    have hsplit : P i = (P i).take (sched.count i) ++ x :: rest := by rw [hpi, List.take_append_drop]
    have hrest : rest = (P i).drop (sched.count i + 1) := by
      rw [← List.drop_drop, ← hpi]; rfl
    have htake : (P i).take (sched.count i + 1) = (P i).take (sched.count i) ++ [x] := by
      have : (P i).take (sched.count i + 1) = (P i).take (sched.count i) ++ ((P i).drop (sched.count i)).take 1 := by
        rw [List.take_add]
      rw [this, ← hpi]; rfl
    obtain ⟨m, h1, h2⟩ := h.alone i
    obtain ⟨r, hr⟩ := hsolo i
    rw [hsplit, exec_append, h1, Outcome.bind_ok, exec] at hr
    dsimp only at hr
    generalize hst : step x (c.loc i) m = s at hr
    cases s with
    | ub u => cases hr
    | trap => cases hr
    | ok s =>
    obtain ⟨l', m'⟩ := s
    obtain ⟨mem', g1, g2, g3, g4⟩ := step_agree (mem := c.mem) hst (by rw [h.len, exec_length h1]) fun a ha =>
      h2 a (Or.inl (by rw [hsplit]; exact mem_loads_cons ha))
    refine ⟨⟨update c.prog i rest, update c.loc i l', mem'⟩, by dsimp only; rw [g1]; rfl, by rw [g2, h.len], ?_, ?_, ?_⟩
    · intro a ha
      rw [(g3 a fun hx => ha i (by rw [hsplit]; exact mem_stores_cons hx)).1]
      exact h.frame a ha
    · intro j
      rw [hcount]
      dsimp only
      by_cases hij : i = j
      · subst hij; rw [update_self, if_pos rfl, hrest]
      · rw [update_ne _ hij, if_neg hij, h.prog j]; rfl
    · intro j
      rw [hcount]
      dsimp only
      by_cases hij : i = j
      · subst hij
        refine ⟨m', ?_, ?_⟩
        · rw [if_pos rfl, htake, exec_append, h1, Outcome.bind_ok, exec, hst, Outcome.bind_ok, exec, update_self]
        · intro a ha
          by_cases hx : a ∈ storesOf [x]
          · exact g4 a hx
          · rw [(g3 a hx).1, (g3 a hx).2]; exact h2 a ha
      · obtain ⟨mj, h3, h4⟩ := h.alone j
        refine ⟨mj, by rw [if_neg hij, update_ne _ hij]; exact h3, fun a ha => ?_⟩
        have hx : a ∉ storesOf [x] := by
          intro hx
          have := hind i j hij a (by rw [hsplit]; exact mem_stores_cons hx)
          rcases ha with ha | ha
          · exact this.1 ha
          · exact this.2 ha
        rw [(g3 a hx).1]; exact h4 a ha

theorem runSchedule_reach {P : ∀ i, List (Instr (τ i) α)} {L : ∀ i, Local (τ i) α} {mem : List α}
    (hind : ∀ i j, i ≠ j → ∀ a ∈ storesOf (P i), a ∉ loadsOf (P j) ∧ a ∉ storesOf (P j))
    (hsolo : ∀ i, ∃ r, exec (P i) (L i) mem = .ok r) (sched : List ι) :
    ∃ c, runSchedule sched ⟨P, L, mem⟩ = .ok c ∧ Reach P L mem sched c := by
  suffices H : ∀ (s2 s1 : List ι) (c : Config ι τ α), Reach P L mem s1 c →
      ∃ c', runSchedule s2 c = .ok c' ∧ Reach P L mem (s1 ++ s2) c' by
    obtain ⟨c, h1, h2⟩ := H sched [] ⟨P, L, mem⟩
      ⟨rfl, fun _ _ => rfl, fun _ => rfl, fun i => ⟨mem, rfl, fun _ _ => rfl⟩⟩
    exact ⟨c, h1, by simpa using h2⟩
  intro s2
  induction s2 with
  | nil => intro s1 c h; exact ⟨c, rfl, by simpa using h⟩
  | cons i s2 ih =>
    intro s1 c h
    obtain ⟨c', h1, h2⟩ := tick_reach hind hsolo h i
    obtain ⟨c'', h3, h4⟩ := ih _ c' h2
    exact ⟨c'', by rw [runSchedule, h1, Outcome.bind_ok, h3], by simpa using h4⟩

end Vir.Threads
