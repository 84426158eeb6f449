import Verif.Model.Simd

namespace Vir.Simd

variable {α β S : Type}

theorem at'_eq {v : List α} {i : Nat} (h : i < v.length) : at' v i = .ok v[i] := by
  simp [at', h]

theorem rd_eq {v : List α} {i : Nat} (h : i < v.length) : rd v i = .ok v[i] := by
  simp [rd, h]

theorem forUp_eq (body : Nat → S → Outcome S) (f : Nat → S → S) (c i : Nat) (st : S) (P : Nat → S → Prop)
    (h0 : P i st) (hstep : ∀ j st, i ≤ j → j < i + c → P j st → body j st = .ok (f j st) ∧ P (j + 1) (f j st)) :
    forUp body c i st = .ok ((List.range' i c).foldl (fun st j => f j st) st) ∧
      P (i + c) ((List.range' i c).foldl (fun st j => f j st) st) := by
  induction c generalizing i st with
  | zero => simp [forUp, h0]
  | succ c ih =>
    obtain ⟨h1, h2⟩ := hstep i st (Nat.le_refl _) (by omega) h0
    have := ih (i + 1) (f i st) h2 (fun j st hj1 hj2 => hstep j st (by omega) (by omega))
    simp only [forUp, h1, Outcome.bind_ok, List.range'_succ, List.foldl_cons]
    rw [show i + (c + 1) = i + 1 + c by omega]
    exact this

/-- Invariant rule for loops. -/
theorem forUp_inv (body : Nat → S → Outcome S) (c i : Nat) (st : S) (P : Nat → S → Prop)
    (h0 : P i st) (hstep : ∀ j st, i ≤ j → j < i + c → P j st → ∃ st', body j st = .ok st' ∧ P (j + 1) st') :
    ∃ st', forUp body c i st = .ok st' ∧ P (i + c) st' := by
  induction c generalizing i st with
  | zero => exact ⟨st, rfl, h0⟩
  | succ c ih =>
    obtain ⟨st', h1, h2⟩ := hstep i st (Nat.le_refl _) (by omega) h0
    obtain ⟨st'', h3, h4⟩ := ih (i + 1) st' h2 (fun j st hj1 hj2 => hstep j st (by omega) (by omega))
    refine ⟨st'', ?_, by rwa [show i + (c + 1) = i + 1 + c by omega]⟩
    simp only [forUp, h1, Outcome.bind_ok, h3]

theorem genFrom_eq (f : Nat → Outcome α) (g : Nat → α) (c i : Nat) (h : ∀ j, i ≤ j → j < i + c → f j = .ok (g j)) :
    genFrom f c i = .ok ((List.range' i c).map g) := by
  induction c generalizing i with
  | zero => rfl
  | succ c ih =>
    simp only [genFrom, h i (Nat.le_refl _) (by omega), Outcome.bind_ok,
      ih (i + 1) (fun j h1 h2 => h j (by omega) (by omega)), List.range'_succ, List.map_cons]

theorem gen_eq (n : Nat) (f : Nat → Outcome α) (g : Nat → α) (h : ∀ j, j < n → f j = .ok (g j)) :
    gen n f = .ok ((List.range n).map g) := by
  rw [gen, genFrom_eq f g n 0 (fun j _ hj => h j (by omega)), List.range_eq_range']

theorem genFrom_list {f : Nat → Outcome α} {c i : Nat} {v : List α} (hl : v.length = c)
    (h : ∀ j x, v[j]? = some x → f (i + j) = .ok x) : genFrom f c i = .ok v := by
  induction c generalizing i v with
  | zero => simp [List.length_eq_zero_iff.1 hl, genFrom]
  | succ c ih =>
    cases v with
    | nil => simp at hl
    | cons x xs =>
      have h0 := h 0 x (by simp)
      have := ih (i := i + 1) (v := xs) (by simpa using hl)
        (fun j y hj => by rw [← h (j + 1) y (by simpa using hj)]; congr 1; omega)
      simp only [Nat.add_zero] at h0
      simp only [genFrom, h0, Outcome.bind_ok, this]

/-- A generator produces the list whose lanes it computes. -/
theorem gen_list {f : Nat → Outcome α} {n : Nat} {v : List α} (hl : v.length = n)
    (h : ∀ j x, v[j]? = some x → f j = .ok x) : gen n f = .ok v :=
  genFrom_list hl (fun j x hj => by rw [Nat.zero_add]; exact h j x hj)

theorem genFrom_ub {f : Nat → Outcome α} {u : UB} {c i k : Nat}
    (h : ∀ j, i ≤ j → j < i + c → (∃ x, f j = .ok x) ∨ f j = .ub u) (hk1 : i ≤ k) (hk2 : k < i + c)
    (hk : f k = .ub u) : genFrom f c i = .ub u := by
  induction c generalizing i with
  | zero => omega
  | succ c ih =>
    rcases h i (Nat.le_refl _) (by omega) with ⟨x, hx⟩ | hx
    · have hik : i ≠ k := by rintro rfl; rw [hk] at hx; exact absurd hx (by simp)
      simp only [genFrom, hx, Outcome.bind_ok, ih (i := i + 1) (fun j h1 h2 => h j (by omega) (by omega)) (by omega) (by omega),
        Outcome.bind_ub]
    · simp only [genFrom, hx, Outcome.bind_ub]

/-- A generator is undefined if one lane is. -/
theorem gen_ub {f : Nat → Outcome α} {u : UB} {n k : Nat} (h : ∀ j, j < n → (∃ x, f j = .ok x) ∨ f j = .ub u)
    (hk : k < n) (hu : f k = .ub u) : gen n f = .ub u :=
  genFrom_ub (fun j _ hj => h j (by omega)) (by omega) (by omega) hu

theorem load_eq {mem : List α} {off n : Nat} (h : off + n ≤ mem.length) :
    load n mem off = .ok ((mem.drop off).take n) := by
  refine gen_list (by simp; omega) fun j x hj => ?_
  simp only [List.getElem?_take, List.getElem?_drop] at hj
  split at hj
  · simp [rd, hj]
  · simp at hj

theorem searchUp_none {body : Nat → Outcome (Option β)} {dflt : Outcome β} {c i : Nat}
    (h : ∀ j, i ≤ j → j < i + c → body j = .ok none) : searchUp body dflt c i = dflt := by
  induction c generalizing i with
  | zero => rfl
  | succ c ih =>
    simp only [searchUp, h i (Nat.le_refl _) (by omega), Outcome.bind_ok]
    exact ih (fun j h1 h2 => h j (by omega) (by omega))

theorem searchUp_some {body : Nat → Outcome (Option β)} {dflt : Outcome β} {c i k : Nat} {x : β}
    (h : ∀ j, i ≤ j → j < k → body j = .ok none) (hk : i ≤ k) (hkc : k < i + c) (hx : body k = .ok (some x)) :
    searchUp body dflt c i = .ok x := by
  induction c generalizing i with
  | zero => omega
  | succ c ih =>
    by_cases hik : i = k
    · subst hik; simp only [searchUp, hx, Outcome.bind_ok]
    · simp only [searchUp, h i (Nat.le_refl _) (by omega), Outcome.bind_ok]
      exact ih (fun j h1 h2 => h j (by omega) h2) (by omega) (by omega)

theorem searchDown_none {body : Nat → Outcome (Option β)} {dflt : Outcome β} {c : Nat}
    (h : ∀ j, j < c → body j = .ok none) : searchDown body dflt c = dflt := by
  induction c with
  | zero => rfl
  | succ c ih =>
    simp only [searchDown, h c (by omega), Outcome.bind_ok]
    exact ih (fun j h1 => h j (by omega))

theorem searchDown_some {body : Nat → Outcome (Option β)} {dflt : Outcome β} {c k : Nat} {x : β}
    (h : ∀ j, k < j → j < c → body j = .ok none) (hkc : k < c) (hx : body k = .ok (some x)) :
    searchDown body dflt c = .ok x := by
  induction c with
  | zero => omega
  | succ c ih =>
    by_cases hik : c = k
    · subst hik; simp only [searchDown, hx, Outcome.bind_ok]
    · simp only [searchDown, h c (by omega) (by omega), Outcome.bind_ok]
      exact ih (fun j h1 h2 => h j h1 (by omega)) (by omega)

end Vir.Simd
