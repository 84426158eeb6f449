import Verif.Model.ForEachGen

/-!
# Lemmas about `for_each` for any simd-like type
-/

namespace Vir.ForEach

variable {σ α S S' : Type}

/-! ## Agreement with the model for `simd` -/

theorem jumpFrom_eqG (e : Env) (wb : Bool) (f : Callable σ α) (table : List (Nat × Nat)) (bound : Nat) (aligned : Bool)
    (fuel n : Nat) (pos : Int) (st : St σ α) :
    jumpFrom e wb f table bound aligned fuel n pos st = jumpFromG (loadAndInvoke e wb f) table bound aligned fuel n pos st := by
  induction fuel generalizing n pos st with
  | zero => rfl
  | succ fuel ih =>
    unfold jumpFrom jumpFromG
    simp only [ih]
    rfl

theorem jumpTable_eqG (e : Env) (wb : Bool) (f : Callable σ α) (table : List (Nat × Nat)) (bound : Nat) (aligned : Bool)
    (n : Nat) (pos : Int) (st : St σ α) :
    jumpTable e wb f table bound aligned n pos st = jumpTableG (loadAndInvoke e wb f) table bound aligned n pos st := by
  unfold jumpTable jumpTableG
  simp only [jumpFrom_eqG]
  rfl

theorem prologueRec_eqG (e : Env) (wb : Bool) (f : Callable σ α) (max tp k : Nat) (pos : Int) (st : St σ α) :
    prologueRec e wb f max tp k pos st = prologueRecG e (loadAndInvoke e wb f) max tp k pos st := by
  induction h : max - 2 ^ k using Nat.strongRecOn generalizing k pos st with
  | _ m ih =>
    unfold prologueRec prologueRecG
    simp only [jumpTable_eqG]
    have key : ∀ (pos : Int) (st : St σ α), (if _h : 2 ^ k * 2 < max then prologueRec e wb f max tp (k + 1) pos st else .ok st)
        = (if _h : 2 ^ k * 2 < max then prologueRecG e (loadAndInvoke e wb f) max tp (k + 1) pos st else .ok st) := by
      intro pos st
      split
      · rename_i hlt
        have hp := Nat.two_pow_pos k
        exact ih _ (by rw [Nat.pow_succ] at *; omega) _ _ _ rfl
      · rfl
    simp only [key]

theorem epilogue_eqG (e : Env) (wb : Bool) (f : Callable σ α) (v0 leftover : Nat) (last : Int) (aligned : Bool) (st : St σ α) :
    epilogue e wb f v0 leftover last aligned st = epilogueG e (loadAndInvoke e wb f) v0 leftover last aligned st := by
  induction v0 using Nat.strongRecOn generalizing leftover st with
  | _ v0 ih =>
    unfold epilogue epilogueG
    simp only [jumpTable_eqG]
    by_cases hv : v0 ≤ 1
    · rw [dif_pos hv, dif_pos hv]
    · rw [dif_neg hv, dif_neg hv]
      simp only [ih (stdBitCeil v0 / 2) (half_bitCeil_lt (by omega))]

/-- The model of `for_each` for `simd` is the instance of the general one. -/
theorem forEach_eq_forEachG (e : Env) (wb : Bool) (f : Callable σ α) (s : σ) (mem : List α) :
    forEach e wb f s mem = forEachG e (loadAndInvoke e wb f) mem.length (s, mem) := by
  unfold forEach forEachG
  simp only [prologueRec_eqG, epilogue_eqG]
  rfl

/-! ## Simulation -/

/-- Two executions with corresponding results: `y` computes the image under `φ` of what `x` computes, or both are undefined, or
both trap. -/
def Sim {A B : Type} (φ : A → B) : Outcome A → Outcome B → Prop
  | .ok a, .ok b => b = φ a
  | .ub _, .ub _ => True
  | .trap, .trap => True
  | _, _ => False

theorem Sim.ok {A B : Type} {φ : A → B} (a : A) : Sim φ (.ok a) (.ok (φ a)) := rfl
theorem Sim.ub {A B : Type} {φ : A → B} (r r' : UB) : Sim φ (.ub r) (.ub r') := trivial

theorem Sim.bind {A B C D : Type} {φ : A → B} {ψ : C → D} {x : Outcome A} {y : Outcome B} {g : A → Outcome C} {h : B → Outcome D}
    (hxy : Sim φ x y) (hgh : ∀ a, Sim ψ (g a) (h (φ a))) : Sim ψ (x >>= g) (y >>= h) := by
  cases x <;> cases y <;> simp only [Sim] at hxy
  · subst hxy; exact hgh _
  · trivial
  · trivial

theorem Sim.ite {A B : Type} {φ : A → B} {p : Prop} [ip : Decidable p] [iq : Decidable p] {x x' : Outcome A} {y y' : Outcome B}
    (h : p → Sim φ x y) (h' : ¬ p → Sim φ x' y') : Sim φ (@_root_.ite _ p ip x x') (@_root_.ite _ p iq y y') := by
  by_cases hp : p
  · rw [if_pos hp, if_pos hp]; exact h hp
  · rw [if_neg hp, if_neg hp]; exact h' hp

theorem Sim.of_ok {A B : Type} {φ : A → B} {x : Outcome A} {y : Outcome B} {a : A} (h : Sim φ x y) (hx : x = .ok a) :
    y = .ok (φ a) := by
  subst hx
  cases y <;> simp only [Sim] at h
  rw [h]

/-- The invocations correspond for every positive width up to `W`. -/
def InvSim (W : Nat) (φ : S → S') (inv : Inv S) (inv' : Inv S') : Prop :=
  ∀ w aligned k pos st, 0 < w → w ≤ W → Sim φ (inv w aligned k pos st) (inv' w aligned k pos (φ st))

variable {W : Nat} {φ : S → S'} {inv : Inv S} {inv' : Inv S'}

/-- Rows of a jump table go to smaller labels. -/
def Descending (table : List (Nat × Nat)) : Prop := ∀ p ∈ table, p.2 < p.1

theorem lookup_mem {table : List (Nat × Nat)} {n m : Nat} (h : table.lookup n = some m) : (n, m) ∈ table := by
  induction table with
  | nil => simp at h
  | cons p t ih =>
    rw [List.lookup_cons] at h
    split at h
    · rename_i hb
      obtain ⟨a, b⟩ := p
      simp at hb h
      subst hb; subst h
      exact List.mem_cons_self
    · exact List.mem_cons_of_mem _ (ih h)

theorem prologueTable_desc : Descending prologueTable := by unfold Descending; decide
theorem epilogueTable_desc : Descending epilogueTable := by unfold Descending; decide

theorem sim_jumpFrom (hi : InvSim W φ inv inv') {table : List (Nat × Nat)} (ht : Descending table) {bound : Nat} (hb : bound ≤ W)
    (aligned : Bool)
    (fuel n : Nat) (pos : Int) (st : S) :
    Sim φ (jumpFromG inv table bound aligned fuel n pos st) (jumpFromG inv' table bound aligned fuel n pos (φ st)) := by
  induction fuel generalizing n pos st with
  | zero => trivial
  | succ fuel ih =>
    unfold jumpFromG
    split
    · rfl
    · cases hl : table.lookup n with
      | none => trivial
      | some m =>
        dsimp only
        split
        · trivial
        · have := ht _ (lookup_mem hl)
          dsimp only at this
          exact (hi _ _ _ _ _ (by omega) (by omega)).bind fun a => ih _ _ _

theorem sim_jumpTable (hi : InvSim W φ inv inv') {table : List (Nat × Nat)} (ht : Descending table) {bound : Nat} (hb : bound ≤ W)
    (aligned : Bool)
    (n : Nat) (pos : Int) (st : S) :
    Sim φ (jumpTableG inv table bound aligned n pos st) (jumpTableG inv' table bound aligned n pos (φ st)) := by
  unfold jumpTableG
  cases table.lookup n with
  | none => trivial
  | some m => exact sim_jumpFrom hi ht hb _ _ _ _ _

theorem sim_prologueRec (hi : InvSim W φ inv inv') (e : Env) {max : Nat} (hm : max ≤ W) (tp k : Nat) (hk : 1 < max → 2 ^ k < max)
    (pos : Int) (st : S) :
    Sim φ (prologueRecG e inv max tp k pos st) (prologueRecG e inv' max tp k pos (φ st)) := by
  induction h : max - 2 ^ k using Nat.strongRecOn generalizing k pos st with
  | _ m ih =>
    have hp := Nat.two_pow_pos k
    unfold prologueRecG
    split
    · trivial
    rename_i h1
    simp only [Bool.not_eq_true', Bool.not_eq_false, Bool.and_eq_true, decide_eq_true_eq] at h1
    have hk := hk h1.1
    split
    · trivial
    split
    · exact hi _ _ _ _ _ hp (by omega)
    split
    · exact sim_jumpTable hi prologueTable_desc hm _ _ _ _
    have key : ∀ (pos : Int) (st : S), Sim φ
        (if _h : 2 ^ k * 2 < max then prologueRecG e inv max tp (k + 1) pos st else .ok st)
        (if _h : 2 ^ k * 2 < max then prologueRecG e inv' max tp (k + 1) pos (φ st) else .ok (φ st)) := by
      intro pos st
      split
      · rename_i hlt
        exact ih _ (by rw [Nat.pow_succ] at *; omega) _ (fun _ => by rw [Nat.pow_succ]; exact hlt) _ _ rfl
      · rfl
    by_cases hc : (2 ^ k &&& tp) ≠ 0
    · simp only [if_pos hc, Outcome.bind_ok]
      exact Sim.bind (φ := φ) (hi _ _ _ _ _ hp (by omega)) fun a => key _ _
    · simp only [if_neg hc, Outcome.bind_ok]
      exact key _ _

theorem half_bitCeil_pos {n : Nat} (h : 1 < n) : 0 < stdBitCeil n / 2 := by
  unfold stdBitCeil
  rw [if_neg (by omega), Nat.pow_succ, Nat.mul_div_cancel _ (by omega)]
  exact Nat.two_pow_pos _

theorem sim_epilogue (hi : InvSim W φ inv inv') (e : Env) {v0 : Nat} (hW : v0 ≤ W) (leftover : Nat) (last : Int) (aligned : Bool) (st : S) :
    Sim φ (epilogueG e inv v0 leftover last aligned st) (epilogueG e inv' v0 leftover last aligned (φ st)) := by
  induction v0 using Nat.strongRecOn generalizing leftover st with
  | _ v0 ih =>
    unfold epilogueG
    by_cases hv : v0 ≤ 1
    · rw [dif_pos hv, dif_pos hv]; trivial
    rw [dif_neg hv, dif_neg hv]
    split
    · exact hi _ _ _ _ _ (by omega) (by omega)
    split
    · exact sim_jumpTable hi epilogueTable_desc hW _ _ _ _
    split
    · exact sim_jumpTable hi epilogueTable_desc hW _ _ _ _
    have hw := half_bitCeil_pos (show 1 < v0 by omega)
    have hw' := half_bitCeil_lt (show 1 < v0 by omega)
    have key : ∀ (leftover : Nat) (st : S), Sim φ
        (if stdBitCeil v0 / 2 > 1 then
          if leftover ≠ 0 then epilogueG e inv (stdBitCeil v0 / 2) leftover last aligned st else .ok st
        else .ok st)
        (if stdBitCeil v0 / 2 > 1 then
          if leftover ≠ 0 then epilogueG e inv' (stdBitCeil v0 / 2) leftover last aligned (φ st) else .ok (φ st)
        else .ok (φ st)) := by
      intro l st
      split
      · split
        · exact ih _ hw' (by omega) _ _
        · rfl
      · rfl
    dsimp only
    split
    · exact Sim.bind (φ := φ) (hi _ _ _ _ _ hw (by omega)) fun a => key _ _
    · exact key _ _

/-- The image of a position and a state. -/
def onSnd {A : Type} (φ : S → S') (p : A × S) : A × S' := (p.1, φ p.2)

theorem sim_whileLoop (cond : Int → Bool) (step : Nat) {body : Int → S → Outcome S} {body' : Int → S' → Outcome S'}
    (hb : ∀ p st, Sim φ (body p st) (body' p (φ st))) (fuel : Nat) (pos : Int) (st : S) :
    Sim (onSnd φ) (whileLoop cond step body fuel pos st) (whileLoop cond step body' fuel pos (φ st)) := by
  induction fuel generalizing pos st with
  | zero => trivial
  | succ fuel ih =>
    unfold whileLoop
    split
    · exact (hb _ _).bind fun a => ih _ _
    · rfl

theorem sim_constLoop (e : Env) (n : Nat) {body : Int → S → Outcome S} {body' : Int → S' → Outcome S'}
    (hb : ∀ p st, Sim φ (body p st) (body' p (φ st))) (fuel : Nat) (pos : Int) (st : S) :
    Sim (onSnd φ) (constLoop e n body fuel pos st) (constLoop e n body' fuel pos (φ st)) := by
  induction fuel generalizing pos st with
  | zero => trivial
  | succ fuel ih =>
    unfold constLoop
    split
    · trivial
    split
    · exact (hb _ _).bind fun a => ih _ _
    · rfl

theorem sim_runPrologue (e : Env) (remaining : Nat) {pro : Nat → Nat → S → Outcome S} {pro' : Nat → Nat → S' → Outcome S'}
    (hp : prologuePossible e = true → ∀ t st, Sim φ (pro (maxMisalignment e) t st) (pro' (maxMisalignment e) t (φ st))) (first : Int) (st : S) :
    Sim (onSnd (onSnd φ)) (runPrologue e remaining pro first st) (runPrologue e remaining pro' first (φ st)) := by
  unfold runPrologue
  split
  · rename_i h
    have hp := hp (by
      simp only [useAligned, maybeAnyway, Bool.or_eq_true, Bool.and_eq_true] at h
      exact h.elim And.right And.right)
    split
    · rfl
    split
    · exact (hp _ _).bind fun a => rfl
    split
    · exact (hp _ _).bind fun a => rfl
    · rfl
  · rfl

theorem sim_unrolledLoop {e : Env} (hi : InvSim e.size φ inv inv') (hs : 0 < e.size) (n : Nat) (first : Int) (st : S) :
    Sim (onSnd φ) (unrolledLoopG e inv n first st) (unrolledLoopG e inv' n first (φ st)) := by
  unfold unrolledLoopG
  split
  · have : Sim id (subPtr e n (e.size * e.pol.unrollBy.toNat)) (subPtr e n (e.size * e.pol.unrollBy.toNat)) := by
      unfold subPtr; split
      · trivial
      · rfl
    exact this.bind fun a => sim_whileLoop _ _ (fun p st => hi _ _ _ p st hs (Nat.le_refl _)) _ _ _
  · rfl

theorem maxMisalignment_le {e : Env} (hs : 0 < e.size) (hp : prologuePossible e = true) : maxMisalignment e ≤ e.size := by
  simp only [prologuePossible, Bool.and_eq_true, decide_eq_true_eq] at hp
  obtain ⟨⟨_, h2⟩, h3⟩ := hp
  unfold maxMisalignment
  by_cases hz : e.sz = 0
  · rw [hz, Nat.div_zero]; omega
  · have h4 := Nat.le_of_dvd (Nat.mul_pos hs (by omega)) (Nat.dvd_of_mod_eq_zero h2)
    calc e.al e.size / e.sz ≤ e.size * e.sz / e.sz := Nat.div_le_div_right h4
      _ = e.size := Nat.mul_div_cancel _ (by omega)

/-- Corresponding invocations give corresponding runs of the whole algorithm. -/
theorem sim_forEach {e : Env} (hi : InvSim e.size φ inv inv') (hs : 0 < e.size) (n : Nat) (st : S) :
    Sim φ (forEachG e inv n st) (forEachG e inv' n (φ st)) := by
  unfold forEachG
  dsimp only
  split
  · rfl
  split
  · trivial
  split
  · refine (sim_constLoop e n (fun p st => hi _ _ _ p st hs (Nat.le_refl _)) _ _ _).bind fun a => ?_
    obtain ⟨p, st⟩ := a
    dsimp only [onSnd]
    split
    · exact sim_epilogue hi _ (Nat.le_refl _) _ _ _ _
    · rfl
  · refine (sim_runPrologue e n (fun hp t st => sim_prologueRec hi e (maxMisalignment_le hs hp) t 0 (fun h => h) 0 st) 0 st).bind fun a => ?_
    obtain ⟨first, remaining, st⟩ := a
    dsimp only [onSnd]
    refine (sim_unrolledLoop hi hs n first st).bind fun a => ?_
    obtain ⟨first, st⟩ := a
    dsimp only [onSnd]
    have : Sim id (subPtr e n e.size) (subPtr e n e.size) := by
      unfold subPtr; split
      · trivial
      · rfl
    refine this.bind fun last => ?_
    refine (sim_whileLoop _ _ (fun p st => hi _ _ _ p st hs (Nat.le_refl _)) _ _ _).bind fun a => ?_
    obtain ⟨p, st⟩ := a
    dsimp only [onSnd]
    split
    · exact Sim.ite (fun _ => sim_epilogue hi _ (Nat.le_refl _) _ _ _ _) (fun _ => rfl)
    · rfl

end Vir.ForEach
