import Verif.Model.StructSize

/-!
# C31: `struct_size`
-/

namespace Vir.StructSize

/-- What the search over `[lo, hi]` finds. -/
private theorem structSize_spec (acc : Nat → Bool) (fuel lo hi n : Nat) (hln : lo ≤ n) (hnh : n ≤ hi) (hf : hi + 1 - lo ≤ fuel)
    (hconv : ∀ a b c, lo ≤ a → a ≤ b → b ≤ c → c ≤ hi → acc a = true → acc c = true → acc b = true) :
    ∃ r, structSize acc fuel lo hi n = .ok r ∧ (∀ k, lo ≤ k → k ≤ hi → acc k = true → k ≤ r) ∧
      ((lo ≤ r ∧ r ≤ hi ∧ acc r = true) ∨ (r = 0 ∧ ∀ k, lo ≤ k → k ≤ hi → acc k = false)) := by
  induction fuel generalizing lo hi n with
  | zero => omega
  | succ fuel ih =>
    unfold structSize
    rw [if_neg (by omega)]
    simp only
    have right (h : n < hi) := ih (n + 1) hi (n + (hi - n + 1) / 2) (by omega) (by omega) (by omega)
      fun a b c h1 h2 h3 h4 => hconv a b c (by omega) h2 h3 h4
    have left (h : lo < n) := ih lo (n - 1) (lo + (n - lo) / 2) (by omega) (by omega) (by omega)
      fun a b c h1 h2 h3 h4 => hconv a b c h1 h2 h3 (by omega)
    by_cases ha : acc n = true
    · rw [if_pos ha]
      by_cases hh : n = hi
      · rw [if_pos hh]
        exact ⟨n, rfl, fun k _ hk _ => by omega, .inl ⟨hln, hnh, ha⟩⟩
      · rw [if_neg hh]
        obtain ⟨r, hr, hmax, hor⟩ := right (by omega)
        rw [hr, Outcome.bind_ok]
        by_cases h0 : r = 0
        · rw [if_pos h0]
          refine ⟨n, rfl, fun k h1 h2 h3 => ?_, .inl ⟨hln, hnh, ha⟩⟩
          by_cases hk : k ≤ n
          · exact hk
          · have := hmax k (by omega) h2 h3; omega
        · rw [if_neg h0]
          rcases hor with ⟨h1, h2, h3⟩ | ⟨h1, _⟩
          · refine ⟨r, rfl, fun k hk1 hk2 hk3 => ?_, .inl ⟨by omega, h2, h3⟩⟩
            by_cases hk : n + 1 ≤ k
            · exact hmax k hk hk2 hk3
            · omega
          · exact absurd h1 h0
    · have ha' : acc n = false := by simpa using ha
      rw [if_neg ha]
      by_cases hl : n = lo
      · rw [if_pos hl]
        by_cases hh : n = hi
        · rw [if_pos hh]
          refine ⟨0, rfl, fun k h1 h2 h3 => ?_, .inr ⟨rfl, fun k h1 h2 => ?_⟩⟩
          · rw [show k = n by omega] at h3; exact absurd h3 ha
          · rw [show k = n by omega]; exact ha'
        · rw [if_neg hh]
          obtain ⟨r, hr, hmax, hor⟩ := right (by omega)
          refine ⟨r, hr, fun k h1 h2 h3 => ?_, ?_⟩
          · refine hmax k ?_ h2 h3
            rcases Nat.lt_or_ge n k with h | h
            · exact h
            · rw [show k = n by omega] at h3; exact absurd h3 ha
          · rcases hor with ⟨h1, h2, h3⟩ | ⟨h1, h2⟩
            · exact .inl ⟨by omega, h2, h3⟩
            · refine .inr ⟨h1, fun k hk1 hk2 => ?_⟩
              rcases Nat.lt_or_ge n k with h | h
              · exact h2 k h hk2
              · rw [show k = n by omega]; exact ha'
      · rw [if_neg hl]
        obtain ⟨l, hlr, hlmax, hlor⟩ := left (by omega)
        rw [hlr, Outcome.bind_ok]
        by_cases hl0 : l > 0
        · rw [if_pos hl0]
          rcases hlor with ⟨h1, h2, h3⟩ | ⟨h1, _⟩
          · refine ⟨l, rfl, fun k hk1 hk2 hk3 => ?_, .inl ⟨h1, by omega, h3⟩⟩
            by_cases hk : k ≤ n - 1
            · exact hlmax k hk1 hk hk3
            · exact absurd (hconv l n k h1 (by omega) (by omega) hk2 h3 hk3) ha
          · omega
        · rw [if_neg hl0]
          have hl0 : l = 0 := by omega
          subst hl0
          by_cases hh : n = hi
          · rw [if_pos hh]
            refine ⟨0, rfl, fun k hk1 hk2 hk3 => ?_, ?_⟩
            · rcases Nat.lt_or_ge k n with h | h
              · exact hlmax k hk1 (by omega) hk3
              · rw [show k = n by omega] at hk3; exact absurd hk3 ha
            · rcases hlor with ⟨h1, h2, h3⟩ | ⟨_, h2⟩
              · exact .inl ⟨h1, by omega, h3⟩
              · refine .inr ⟨rfl, fun k hk1 hk2 => ?_⟩
                rcases Nat.lt_or_ge k n with h | h
                · exact h2 k hk1 (by omega)
                · rw [show k = n by omega]; exact ha'
          · rw [if_neg hh]
            obtain ⟨r, hr, hmax, hor⟩ := right (by omega)
            rcases hlor with ⟨h1, h2, h3⟩ | ⟨_, hnone⟩
            · -- zero initialisers are accepted, hence nothing beyond `n` is
              have hno : ∀ k, n < k → k ≤ hi → acc k = false := fun k hk1 hk2 => by
                by_cases hk : acc k = true
                · exact absurd (hconv 0 n k h1 (by omega) (by omega) hk2 h3 hk) ha
                · simpa using hk
              have hr0 : r = 0 := by
                rcases hor with ⟨g1, g2, g3⟩ | ⟨g1, _⟩
                · rw [hno r (by omega) g2] at g3; cases g3
                · exact g1
              subst hr0
              refine ⟨0, hr, fun k hk1 hk2 hk3 => ?_, .inl ⟨h1, by omega, h3⟩⟩
              rcases Nat.lt_or_ge n k with h | h
              · rw [hno k h hk2] at hk3; cases hk3
              · rcases Nat.lt_or_ge k n with h' | h'
                · exact hlmax k hk1 (by omega) hk3
                · rw [show k = n by omega] at hk3; exact absurd hk3 ha
            · refine ⟨r, hr, fun k hk1 hk2 hk3 => ?_, ?_⟩
              · rcases Nat.lt_or_ge n k with h | h
                · exact hmax k h hk2 hk3
                · rcases Nat.lt_or_ge k n with h' | h'
                  · rw [hnone k hk1 (by omega)] at hk3; cases hk3
                  · rw [show k = n by omega] at hk3; exact absurd hk3 ha
              · rcases hor with ⟨h1, h2, h3⟩ | ⟨h1, h2⟩
                · exact .inl ⟨by omega, h2, h3⟩
                · refine .inr ⟨h1, fun k hk1 hk2 => ?_⟩
                  rcases Nat.lt_or_ge n k with h | h
                  · exact h2 k h hk2
                  · rcases Nat.lt_or_ge k n with h' | h'
                    · exact hnone k hk1 (by omega)
                    · rw [show k = n by omega]; exact ha'

/-- **C31.** For every object size and every acceptance predicate whose accepted numbers in `[0, 8 * sizeof]` form an
interval, the search ends and returns the largest accepted number; if no number is accepted it returns zero. -/
theorem structSizeV_largest (acc : Nat → Bool) (sizeofT : Nat) (hs : 0 < sizeofT)
    (hconv : ∀ a b c, a ≤ b → b ≤ c → c ≤ 8 * sizeofT → acc a = true → acc c = true → acc b = true) :
    ∃ r, structSizeV acc sizeofT = .ok r ∧ (∀ k ≤ 8 * sizeofT, acc k = true → k ≤ r) ∧
      ((r ≤ 8 * sizeofT ∧ acc r = true) ∨ (r = 0 ∧ ∀ k ≤ 8 * sizeofT, acc k = false)) := by
  obtain ⟨r, h1, h2, h3⟩ := structSize_spec acc (sizeofT * 8 + 1) 0 (sizeofT * 8) 8 (by omega) (by omega) (by omega)
    fun a b c _ hab hbc hc => hconv a b c hab hbc (by omega)
  refine ⟨r, h1, fun k hk => h2 k (by omega) (by omega), ?_⟩
  rcases h3 with ⟨_, g2, g3⟩ | ⟨g1, g2⟩
  · exact .inl ⟨by omega, g3⟩
  · exact .inr ⟨g1, fun k hk => g2 k (by omega) (by omega)⟩

/-- **C31.** An aggregate that accepts every number of initialisers up to its member count has that member count. -/
theorem structSizeV_members (members sizeofT : Nat) (hs : 0 < sizeofT) (hm : members ≤ 8 * sizeofT) :
    structSizeV (fun n => decide (n ≤ members)) sizeofT = .ok members := by
  obtain ⟨r, h1, h2, h3⟩ := structSizeV_largest (fun n => decide (n ≤ members)) sizeofT hs
    (fun a b c _ hbc _ _ hc => by simp at *; omega)
  rw [h1]
  have := h2 members hm (by simp)
  rcases h3 with ⟨_, g⟩ | ⟨g, g'⟩
  · simp at g; congr 1; omega
  · have := g' 0 (by omega); simp at this

/-- **C31.** An aggregate whose members all have to be initialised (such as references) has that member count. -/
theorem structSizeV_exact (members sizeofT : Nat) (hs : 0 < sizeofT) (hm : members ≤ 8 * sizeofT) :
    structSizeV (fun n => decide (n = members)) sizeofT = .ok members := by
  obtain ⟨r, h1, h2, h3⟩ := structSizeV_largest (fun n => decide (n = members)) sizeofT hs
    (fun a b c hab hbc _ ha hc => by simp at *; omega)
  rw [h1]
  rcases h3 with ⟨_, g⟩ | ⟨g, g'⟩
  · simp at g; rw [g]
  · have := g' members hm; simp at this

/-- **C31, limit of the claim.** When the accepted numbers do not form an interval, the result need not be the largest. -/
theorem structSizeV_gap : structSizeV (fun n => decide (n = 3 ∨ n = 12)) 2 = .ok 3 := by decide

/-- **C31, limit of the claim.** Members beyond `8 * sizeof` are not found. -/
theorem structSizeV_bound : structSizeV (fun n => decide (n ≤ 10)) 1 = .ok 8 := by decide

/-! ### the theorems are about something -/

example : structSizeV (fun n => decide (n ≤ 3)) 12 = .ok 3 := by decide
example : structSizeV (fun n => decide (5 ≤ n ∧ n ≤ 11)) 44 = .ok 11 := by decide
example : structSizeV (fun _ => false) 4 = .ok 0 := by decide

/-! ## The theorems applied to concrete data -/

example := structSizeV_largest (fun n => decide (5 ≤ n ∧ n ≤ 11)) 44 (by decide) (by simp; omega)
example := structSizeV_members 3 12 (by decide) (by decide)
example := structSizeV_exact 3 12 (by decide) (by decide)

end Vir.StructSize
