import Verif.Model.Overloads
import Verif.Lemmas.GroupsAligned
import Verif.Lemmas.TransformGenEq

/-! Lemmas about the range and zip overloads of `transform`. -/

namespace Vir.Transform
open Spec ForEach

variable {α : Type} {S : Type}

/-- Groups within `[0, n)` may be processed by either of two functions that agree there. -/
theorem runGroups_congr (inv inv' : Group → Nat → S → Outcome S) (n p : Nat) (gs : List Group) (st : S) (hn : p + span gs ≤ n)
    (h : ∀ g q st, q + g.elems ≤ n → inv g q st = inv' g q st) : runGroups inv p gs st = runGroups inv' p gs st := by
  induction gs generalizing p st with
  | nil => rfl
  | cons g gs ih =>
    rw [span_cons] at hn
    simp only [runGroups, h g p st (by omega)]
    congr 1
    funext st
    exact ih _ _ (by omega)

section
variable {e : Env} {r1 d : Rng} {rs : List Rng} {n : Nat}

/-- `t` of the iterator form. -/
def tOf (e : Env) (r1 : Rng) (rs : List Rng) (d : Rng) (n : Nat) : TEnv := ⟨e, r1.base :: rs.map Rng.base, d.base, n⟩

theorem inRange_of_le {n m : Nat} (hm : n ≤ m) (p w : Nat) (h : p + w ≤ n) :
    inRange n (p : Int) w = true ∧ inRange m (p : Int) w = true := by
  simp only [inRange, decide_eq_true_eq]
  omega

theorem loadRng_eq (mem : List α) (w : Nat) (r : Rng) (p : Nat) (h : p + w ≤ n) (hr : n ≤ r.len) :
    loadRng mem w r (p : Int) = loadIn (tOf e r1 rs d n) mem w r.base (p : Int) := by
  obtain ⟨h1, h2⟩ := inRange_of_le hr p w h
  simp only [loadRng, loadIn, tOf, h1, h2]

theorem loadRngs_eq (mem : List α) (w p : Nat) (h : p + w ≤ n) (qs : List Rng) (hq : ∀ r ∈ qs, n ≤ r.len) :
    loadRngs mem w (p : Int) qs = loadIns (tOf e r1 rs d n) mem w (p : Int) (qs.map Rng.base) := by
  induction qs with
  | nil => rfl
  | cons r qs ih =>
    simp only [loadRngs, loadIns, List.map_cons, loadRng_eq (e := e) (r1 := r1) (rs := rs) (d := d) mem w r p h (hq r (by simp)),
      ih (fun r hr => hq r (by simp [hr]))]

theorem loadsR_eq (op : VecOp α α) (mem : List α) (w k p : Nat) (h : p + w * k ≤ n) (h1 : n ≤ r1.len) (hq : ∀ r ∈ rs, n ≤ r.len) :
    loadsR r1 rs op mem w k (p : Int) (p : Int) = unrollLoads (tOf e r1 rs d n) op mem w k (p : Int) (p : Int) := by
  induction k generalizing p with
  | zero => rfl
  | succ k ih =>
    rw [Nat.mul_succ] at h
    have := ih (p + w) (by omega)
    rw [Int.natCast_add] at this
    simp only [loadsR, unrollLoads, this, loadRng_eq (e := e) (r1 := r1) (rs := rs) (d := d) mem w r1 p (by omega) h1,
      loadRngs_eq (e := e) (r1 := r1) (rs := rs) (d := d) mem w p (by omega) rs hq]
    unfold loadAndInvoke
    simp only [tOf, Outcome.bind_assoc, Outcome.bind_ok]

theorem storesR_eq (aligned : Bool) (w p : Nat) (vs : List (List α)) (mem : List α) (h : p + w * vs.length ≤ n) (hd : n ≤ d.len) :
    storesR e d aligned w vs (p : Int) mem = unrollStores (tOf e r1 rs d n) aligned w vs (p : Int) mem := by
  induction vs generalizing p mem with
  | nil => rfl
  | cons v vs ih =>
    rw [List.length_cons, Nat.mul_succ] at h
    have hs : storeRng e d mem aligned w (p : Int) v = storeOut (tOf e r1 rs d n) mem aligned w (p : Int) v := by
      obtain ⟨h1, h2⟩ := inRange_of_le hd p w (by omega)
      simp only [storeRng, storeOut, tOf, h1, h2]
      rfl
    simp only [storesR, unrollStores, hs]
    congr 1
    funext mem
    have := ih (p + w) mem (by omega)
    rwa [Int.natCast_add] at this

theorem unrollLoads_length (t : TEnv) (op : VecOp α α) (mem : List α) (w k : Nat) (p1 p2 : Int) (vs : List (List α))
    (h : unrollLoads t op mem w k p1 p2 = .ok vs) : vs.length = k := by
  induction k generalizing p1 p2 vs with
  | zero => simp only [unrollLoads, Outcome.ok.injEq] at h; subst h; rfl
  | succ k ih =>
    simp only [unrollLoads] at h
    cases h1 : loadAndInvoke t op mem w p1 p2 with
    | ub r => rw [h1] at h; exact absurd h (by simp)
    | trap => rw [h1] at h; exact absurd h (by simp)
    | ok v =>
      rw [h1] at h
      simp only [Outcome.bind_ok] at h
      cases h2 : unrollLoads t op mem w k (p1 + w) (p2 + w) with
      | ub r => rw [h2] at h; exact absurd h (by simp)
      | trap => rw [h2] at h; exact absurd h (by simp)
      | ok us =>
        rw [h2] at h
        simp only [Outcome.bind_ok, Outcome.ok.injEq] at h
        subst h
        simp [ih _ _ us h2]

theorem chunksR_eq (op : VecOp α α) (h1 : n ≤ r1.len) (hq : ∀ r ∈ rs, n ≤ r.len) (hd : n ≤ d.len) (g : Group) (p : Nat) (mem : List α)
    (h : p + g.elems ≤ n) :
    atPos (chunksR e r1 rs d op) g p mem = atPos (chunks0 (tOf e r1 rs d n) op) g p mem := by
  unfold atPos chunksR chunks0
  rw [loadsR_eq (e := e) (d := d) op mem g.w g.k p h h1 hq]
  cases h2 : unrollLoads (tOf e r1 rs d n) op mem g.w g.k (p : Int) (p : Int) with
  | ub r => rfl
  | trap => rfl
  | ok vs =>
    simp only [Outcome.bind_ok]
    exact storesR_eq g.aligned g.w p vs mem (by rw [unrollLoads_length _ _ _ _ _ _ _ _ h2]; exact h) hd

/-! ### Ranges that are too short -/

theorem bind_eq_ok {A B : Type} {x : Outcome A} {f : A → Outcome B} {b : B} (h : (x >>= f) = .ok b) : ∃ a, x = .ok a ∧ f a = .ok b := by
  cases x with
  | ok a => exact ⟨a, rfl, h⟩
  | ub r => exact absurd h (by simp)
  | trap => exact absurd h (by simp)

theorem loadRng_ok {mem : List α} {w : Nat} {r : Rng} {p : Int} {v : List α} (h : loadRng mem w r p = .ok v) : p + w ≤ r.len := by
  unfold loadRng at h
  split at h
  · rename_i hc
    simp only [inRange, Bool.and_eq_true, decide_eq_true_eq] at hc
    omega
  · exact absurd h (by simp)

theorem loadRngs_ok {mem : List α} {w : Nat} {p : Int} {qs : List Rng} {vs : List (List α)} (h : loadRngs mem w p qs = .ok vs) :
    ∀ r ∈ qs, p + w ≤ r.len := by
  induction qs generalizing vs with
  | nil => simp
  | cons q qs ih =>
    simp only [loadRngs] at h
    obtain ⟨c, h1, h⟩ := bind_eq_ok h
    obtain ⟨cs, h2, _⟩ := bind_eq_ok h
    intro r hr
    rcases List.mem_cons.1 hr with rfl | hr
    · exact loadRng_ok h1
    · exact ih h2 r hr

theorem loadsR_ok {op : VecOp α α} {mem : List α} {w k p : Nat} {vs : List (List α)}
    (h : loadsR r1 rs op mem w k (p : Int) (p : Int) = .ok vs) :
    vs.length = k ∧ (k = 0 ∨ ∀ r ∈ r1 :: rs, p + w * k ≤ r.len) := by
  induction k generalizing p vs with
  | zero => simp only [loadsR, Outcome.ok.injEq] at h; subst h; exact ⟨rfl, Or.inl rfl⟩
  | succ k ih =>
    simp only [loadsR] at h
    obtain ⟨c, h1, h⟩ := bind_eq_ok h
    obtain ⟨cs, h2, h⟩ := bind_eq_ok h
    obtain ⟨us, h3, h⟩ := bind_eq_ok h
    simp only [Outcome.ok.injEq] at h
    subst h
    rw [← Int.natCast_add] at h3
    obtain ⟨h4, h5⟩ := ih h3
    refine ⟨by simp [h4], Or.inr ?_⟩
    intro r hr
    rcases h5 with h5 | h5
    · subst h5
      simp only [Nat.zero_add, Nat.mul_one]
      rcases List.mem_cons.1 hr with rfl | hr
      · have := loadRng_ok h1; omega
      · have := loadRngs_ok h2 r hr; omega
    · have := h5 r hr
      rw [Nat.mul_succ]; omega

theorem storesR_ok {aligned : Bool} {w p : Nat} {vs : List (List α)} {mem mem' : List α}
    (h : storesR e d aligned w vs (p : Int) mem = .ok mem') : vs.length = 0 ∨ p + w * vs.length ≤ d.len := by
  induction vs generalizing p mem with
  | nil => exact Or.inl rfl
  | cons v vs ih =>
    right
    simp only [storesR] at h
    obtain ⟨m, h1, h⟩ := bind_eq_ok h
    have h1 : p + w ≤ d.len := by
      unfold storeRng at h1
      split at h1
      · exact absurd h1 (by simp)
      · rename_i hc
        simp only [inRange, Bool.not_eq_true', Bool.not_eq_false, Bool.and_eq_true, decide_eq_true_eq] at hc
        omega
    rw [← Int.natCast_add] at h
    rw [List.length_cons, Nat.mul_succ]
    rcases ih h with h2 | h2
    · rw [h2]; omega
    · omega

theorem chunksR_ok {op : VecOp α α} {g : Group} {p : Nat} {mem mem' : List α} (h : atPos (chunksR e r1 rs d op) g p mem = .ok mem') :
    g.elems = 0 ∨ ∀ r ∈ d :: r1 :: rs, p + g.elems ≤ r.len := by
  unfold atPos chunksR at h
  obtain ⟨vs, h1, h2⟩ := bind_eq_ok h
  obtain ⟨h3, h4⟩ := loadsR_ok h1
  rcases h4 with h4 | h4
  · left; simp [Group.elems, h4]
  · have h5 := storesR_ok h2
    rw [h3] at h5
    rcases h5 with h5 | h5
    · left; simp [Group.elems, h5]
    · right
      intro r hr
      rcases List.mem_cons.1 hr with rfl | hr
      · exact h5
      · exact h4 r hr

theorem runGroups_chunksR_ok {op : VecOp α α} {gs : List Group} {p : Nat} {mem mem' : List α}
    (h : runGroups (atPos (chunksR e r1 rs d op)) p gs mem = .ok mem') :
    span gs = 0 ∨ ∀ r ∈ d :: r1 :: rs, p + span gs ≤ r.len := by
  induction gs generalizing p mem with
  | nil => exact Or.inl rfl
  | cons g gs ih =>
    simp only [runGroups] at h
    obtain ⟨m, h1, h2⟩ := bind_eq_ok h
    rw [span_cons]
    rcases ih h2 with h3 | h3
    · rcases chunksR_ok h1 with h4 | h4
      · left; omega
      · right; intro r hr; have := h4 r hr; omega
    · right; intro r hr; have := h3 r hr; omega

def NoTrap {A : Type} (x : Outcome A) : Prop := x ≠ .trap

theorem NoTrap.bind {A B : Type} {x : Outcome A} {f : A → Outcome B} (hx : NoTrap x) (hf : ∀ a, NoTrap (f a)) : NoTrap (x >>= f) := by
  cases x with
  | ok a => exact hf a
  | ub r => simp [NoTrap]
  | trap => exact absurd rfl hx

theorem noTrap_ok {A : Type} (a : A) : NoTrap (Outcome.ok a) := by simp [NoTrap]

theorem noTrap_chunksR (op : VecOp α α) (g : Group) (p : Nat) (mem : List α) : NoTrap (atPos (chunksR e r1 rs d op) g p mem) := by
  have hl : ∀ (mem : List α) w r p, NoTrap (loadRng mem w r p) := by
    intro mem w r p
    unfold loadRng
    split <;> simp [NoTrap]
  have hls : ∀ (mem : List α) w p qs, NoTrap (loadRngs mem w p qs) := by
    intro mem w p qs
    induction qs with
    | nil => exact noTrap_ok _
    | cons q qs ih => exact (hl _ _ _ _).bind fun c => ih.bind fun cs => noTrap_ok _
  have h1 : ∀ w k p1 p2, NoTrap (loadsR r1 rs op mem w k p1 p2) := by
    intro w k
    induction k with
    | zero => intro p1 p2; exact noTrap_ok _
    | succ k ih => intro p1 p2; exact (hl _ _ _ _).bind fun c => (hls _ _ _ _).bind fun cs => (ih _ _).bind fun vs => noTrap_ok _
  have h2 : ∀ aligned w vs p (mem : List α), NoTrap (storesR e d aligned w vs p mem) := by
    intro aligned w vs
    induction vs with
    | nil => intro p mem; exact noTrap_ok _
    | cons v vs ih =>
      intro p mem
      refine NoTrap.bind ?_ fun m => ih _ _
      unfold storeRng
      split
      · simp [NoTrap]
      · split <;> simp [NoTrap]
  exact (h1 _ _ _ _).bind fun vs => h2 _ _ _ _ _

theorem noTrap_runGroups (inv : Group → Nat → S → Outcome S) (h : ∀ g p st, NoTrap (inv g p st)) (p : Nat) (gs : List Group) (st : S) :
    NoTrap (runGroups inv p gs st) := by
  induction gs generalizing p st with
  | nil => exact noTrap_ok _
  | cons g gs ih => exact (h _ _ _).bind fun st => ih _ _

end
end Vir.Transform
