import Verif.Model.Policy

namespace Vir.Policy

theorem foldl_or (l : List PolicyOption) (p : PolicyOption → Bool) (b : Bool) :
    l.foldl (fun a o => a || p o) b = (b || l.any p) := by
  induction l generalizing b with
  | nil => simp
  | cons a l ih => simp [ih, Bool.or_assoc]

theorem foldl_add (l : List PolicyOption) (v : PolicyOption → Int) (b : Int) :
    l.foldl (fun a o => a + v o) b = b + (l.map v).sum := by
  induction l generalizing b with
  | nil => simp
  | cons a l ih => simp [ih, Int.add_assoc]

theorem prefersAligned_eq (p : Policy) : p.prefersAligned = p.options.any (· == .preferAligned) := by
  simp [prefersAligned, foldl_or]
theorem autoPrologue_eq (p : Policy) : p.autoPrologue = p.options.any (· == .autoPrologue) := by
  simp [autoPrologue, foldl_or]
theorem assumeMatchingSize_eq (p : Policy) :
    p.assumeMatchingSize = p.options.any (· == .assumeMatchingSize) := by
  simp [assumeMatchingSize, foldl_or]
theorem unrollBy_eq (p : Policy) : p.unrollBy = (p.options.map unrollValue).sum := by
  simp [unrollBy, foldl_add]
theorem sizeOpt_eq (p : Policy) : p.sizeOpt = (p.options.map sizeValue).sum := by
  simp [sizeOpt, foldl_add]

/-- The option a modifier call appends. -/
def optOf : Modifier → PolicyOption
  | .preferAligned => .preferAligned
  | .autoPrologue => .autoPrologue
  | .assumeMatchingSize => .assumeMatchingSize
  | .unrollBy n => .unrollBy n
  | .preferSize n => .size n

theorem apply_some {p q : Policy} {m : Modifier} (h : p.apply m = some q) :
    q.options = p.options ++ [optOf m] := by
  cases m <;> simp only [apply] at h <;> (repeat' split at h) <;> simp_all [optOf] <;> (subst h; rfl)

theorem applyAll_some {p q : Policy} {ms : List Modifier} (h : p.applyAll ms = some q) :
    q.options = p.options ++ ms.map optOf := by
  induction ms generalizing p with
  | nil => simp [applyAll] at h; simp [h]
  | cons m ms ih =>
    simp only [applyAll, Option.bind_eq_some_iff] at h
    obtain ⟨r, h1, h2⟩ := h
    rw [ih h2, apply_some h1]; simp

/-- The policies a program can construct. -/
def Reachable (p : Policy) : Prop := ∃ ms, simd.applyAll ms = some p

theorem applyAll_snoc (p : Policy) (ms : List Modifier) (m : Modifier) :
    p.applyAll (ms ++ [m]) = (p.applyAll ms).bind fun q => q.apply m := by
  induction ms generalizing p with
  | nil => cases h : p.apply m <;> simp [applyAll, h]
  | cons a ms ih =>
    simp only [List.cons_append, applyAll]
    cases h : p.apply a with
    | none => rfl
    | some q => simp [ih]

/-- Induction over the construction of a policy. -/
theorem Reachable.induction {P : Policy → Prop} (h0 : P simd)
    (hs : ∀ p q m, Reachable p → P p → p.apply m = some q → P q) {p : Policy} (h : Reachable p) : P p := by
  obtain ⟨ms, h⟩ := h
  have key : ∀ n ms p, ms.length = n → simd.applyAll ms = some p → P p := by
    intro n
    induction n with
    | zero =>
      intro ms p hl h
      rw [List.length_eq_zero_iff] at hl
      subst hl
      simp [applyAll] at h
      exact h ▸ h0
    | succ n ih =>
      intro ms p hl h
      have hne : ms ≠ [] := by intro h; simp [h] at hl
      rw [← List.dropLast_concat_getLast hne, applyAll_snoc] at h
      simp only [Option.bind_eq_some_iff] at h
      obtain ⟨r, h1, h2⟩ := h
      exact hs r p _ ⟨_, h1⟩ (ih _ r (by simp [hl]) h1) h2
  exact key _ ms p rfl h

/-- Invariant of constructible policies. -/
structure Inv (p : Policy) : Prop where
  pa : p.prefersAligned = true → p.autoPrologue = false ∧ p.assumeMatchingSize = false
  ap : p.autoPrologue = true → p.assumeMatchingSize = false
  ur : p.unrollBy = 0 ∨ 1 < p.unrollBy
  sz : 0 ≤ p.sizeOpt

theorem Reachable.inv {p : Policy} (h : Reachable p) : Inv p := by
  refine h.induction (P := Inv) ?_ ?_
  · refine ⟨?_, ?_, ?_, ?_⟩ <;> decide
  · intro p q m _ hi hq
    have ho := apply_some hq
    obtain ⟨h1, h2, h3, h4⟩ := hi
    rw [prefersAligned_eq, autoPrologue_eq, assumeMatchingSize_eq] at h1
    rw [autoPrologue_eq, assumeMatchingSize_eq] at h2
    rw [unrollBy_eq] at h3
    rw [sizeOpt_eq] at h4
    cases m with
    | unrollBy n =>
      simp only [apply] at hq
      repeat' split at hq
      all_goals try simp at hq
      rename_i hu hn
      rw [unrollBy_eq] at hu
      refine ⟨?_, ?_, ?_, ?_⟩ <;>
        simp_all [prefersAligned_eq, autoPrologue_eq, assumeMatchingSize_eq, unrollBy_eq, sizeOpt_eq, optOf,
          unrollValue, sizeValue]
    | preferSize n =>
      simp only [apply] at hq
      repeat' split at hq
      all_goals try simp at hq
      rename_i hu hn
      rw [sizeOpt_eq] at hu
      refine ⟨?_, ?_, ?_, ?_⟩ <;>
        simp_all [prefersAligned_eq, autoPrologue_eq, assumeMatchingSize_eq, unrollBy_eq, sizeOpt_eq, optOf,
          unrollValue, sizeValue]
      omega
    | _ =>
      simp only [apply] at hq
      split at hq
      all_goals try simp at hq
      rename_i hu
      rw [prefersAligned_eq, autoPrologue_eq, assumeMatchingSize_eq] at hu
      refine ⟨?_, ?_, ?_, ?_⟩ <;>
        simp_all [prefersAligned_eq, autoPrologue_eq, assumeMatchingSize_eq, unrollBy_eq, sizeOpt_eq, optOf,
          unrollValue, sizeValue]
      all_goals intro h; first | exact hu.1.1 _ h rfl | exact hu.1.2 _ h rfl

end Vir.Policy
