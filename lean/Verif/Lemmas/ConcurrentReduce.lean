import Verif.Model.ConcurrentReduce
import Verif.Lemmas.ReduceEffectsPure

/-! `transform_reduce` with two ways to load that yield the same values returns the same. -/

namespace Vir
open Spec ForEach

namespace Eff

variable {σ ρ A B : Type}

/-- What is left of an outcome without the state. -/
def erase (x : Outcome (σ × Option A)) : Outcome (Option A) :=
  match x with
  | .ok r => .ok r.2
  | .ub r => .ub r
  | .trap => .trap

/-- The same outcome but for the state, from all states. -/
def Rel (m : Eff σ A) (m' : Eff ρ A) : Prop := ∀ s s', erase (m s) = erase (m' s')

theorem rel_lift (x : Outcome A) : Rel (lift x : Eff σ A) (lift x : Eff ρ A) := by
  intro s s'; cases x <;> rfl

theorem rel_pure (a : A) : Rel (pure a : Eff σ A) (pure a : Eff ρ A) := fun _ _ => rfl

theorem rel_bind {m : Eff σ A} {m' : Eff ρ A} {f : A → Eff σ B} {f' : A → Eff ρ B} (h : Rel m m') (hf : ∀ a, Rel (f a) (f' a)) :
    Rel (m >>= f) (m' >>= f') := by
  intro s s'
  have := h s s'
  simp only [bind_def]
  rcases h1 : m s with ⟨t, _ | a⟩ | r | _ <;> rcases h2 : m' s' with ⟨t', _ | a'⟩ | r' | _ <;> rw [h1, h2] at this <;>
    simp only [erase, Outcome.ok.injEq, Outcome.ub.injEq, reduceCtorEq, Option.some.injEq] at this
  · rfl
  · subst this; exact hf a t t'
  · subst this; rfl
  · rfl

theorem rel_ite {c : Prop} [Decidable c] {m n : Eff σ A} {m' n' : Eff ρ A} (h : c → Rel m m') (h' : ¬ c → Rel n n') :
    Rel (if c then m else n) (if c then m' else n') := by
  split
  · exact h ‹_›
  · exact h' ‹_›

theorem rel_foldlM {C : Type} {f : A → C → Eff σ A} {f' : A → C → Eff ρ A} (h : ∀ a c, Rel (f a c) (f' a c)) (l : List C) (a : A) :
    Rel (l.foldlM f a) (l.foldlM f' a) := by
  induction l generalizing a with
  | nil => exact rel_pure a
  | cons c l ih =>
    rw [List.foldlM_cons, List.foldlM_cons]
    exact rel_bind (h a c) ih

end Eff

namespace TransformReduce
open Transform Eff

variable {σ ρ α β τ : Type} {R : REnv α β τ} {t : TEnv} {ld : Loader σ β} {ld' : Loader ρ β}

theorem rel_red (x y : List τ) : Rel (redE (opsOf R) x y : Eff σ _) (redE (opsOf R) x y : Eff ρ _) := fun _ _ => rfl
theorem rel_hredT (v : List τ) : Rel (hredTE (opsOf R) v : Eff σ _) (hredTE (opsOf R) v : Eff ρ _) := fun _ _ => rfl
theorem rel_hredB (v : List β) : Rel (hredBE (opsOf R) v : Eff σ _) (hredBE (opsOf R) v : Eff ρ _) := fun _ _ => rfl
theorem rel_red1 (a : τ) (y : List τ) : Rel (red1E (opsOf R) a y : Eff σ _) (red1E (opsOf R) a y : Eff ρ _) :=
  rel_bind (rel_red _ _) fun _ => rel_lift _

theorem rel_prologue (h : ∀ a w p q, Rel (ld a w p q) (ld' a w p q)) (max tp k : Nat) (acc1 : τ) :
    Rel (prologueRecE t (opsOf R) ld max tp k acc1) (prologueRecE t (opsOf R) ld' max tp k acc1) := by
  induction hm : max - 2 ^ k using Nat.strongRecOn generalizing k acc1 with
  | _ m ih =>
    unfold prologueRecE
    have cont : ∀ a, Rel (if _h : 2 ^ k < max then prologueRecE t (opsOf R) ld max tp (k + 1) a else pure a)
        (if _h : 2 ^ k < max then prologueRecE t (opsOf R) ld' max tp (k + 1) a else pure a) := by
      intro a
      by_cases hk : 2 ^ k < max
      · rw [dif_pos hk, dif_pos hk]
        have : 0 < 2 ^ k := Nat.two_pow_pos k
        exact ih _ (by rw [← hm, Nat.pow_succ]; omega) (k + 1) a rfl
      · rw [dif_neg hk, dif_neg hk]; exact rel_pure _
    refine rel_ite (fun _ => rel_lift _) fun _ => rel_ite (fun _ => ?_) fun _ => rel_bind (rel_pure _) cont
    exact rel_bind (h _ _ _ _) fun v => rel_bind (rel_hredB _) fun x => rel_bind (rel_red1 _ _) cont

theorem rel_epilogueAcc (h : ∀ a w p q, Rel (ld a w p q) (ld' a w p q)) (al : Bool) (l k : Nat) (acc1 : τ) (acc : List τ) (p1 p2 : Int) :
    Rel (epilogueAccE t (opsOf R) ld al l k acc1 acc p1 p2) (epilogueAccE t (opsOf R) ld' al l k acc1 acc p1 p2) := by
  induction k generalizing acc p1 p2 with
  | zero =>
    simp only [epilogueAccE]
    exact rel_ite (fun _ => rel_bind (h _ _ _ _) fun v => rel_bind (rel_red _ _) fun _ => rel_red1 _ _) fun _ => rel_lift _
  | succ k ih =>
    simp only [epilogueAccE]
    refine rel_ite (fun _ => rel_bind (h _ _ _ _) fun v => rel_bind (rel_red _ _) fun _ => rel_ite (fun _ => ?_) fun _ => ?_) fun _ =>
      rel_ite (fun _ => rel_lift _) fun _ => ?_
    · exact rel_bind (rel_hredT _) fun _ => rel_red1 _ _
    · exact rel_bind (rel_red _ _) fun _ => ih _ _ _
    · exact rel_bind (rel_red _ _) fun _ => ih _ _ _

theorem rel_epilogue (h : ∀ a w p q, Rel (ld a w p q) (ld' a w p q)) (al : Bool) (l k : Nat) (acc1 : τ) (p1 p2 : Int) :
    Rel (epilogueE t (opsOf R) ld al l k acc1 p1 p2) (epilogueE t (opsOf R) ld' al l k acc1 p1 p2) := by
  induction k generalizing p1 p2 with
  | zero =>
    simp only [epilogueE]
    exact rel_ite (fun _ => rel_bind (h _ _ _ _) fun v => rel_red1 _ _) fun _ => rel_lift _
  | succ k ih =>
    simp only [epilogueE]
    refine rel_ite (fun _ => rel_bind (h _ _ _ _) fun v => rel_ite (fun _ => ?_) fun _ => ?_) fun _ =>
      rel_ite (fun _ => rel_lift _) fun _ => ih _ _
    · exact rel_bind (rel_hredT _) fun _ => rel_red1 _ _
    · exact rel_bind (rel_red _ _) fun _ => rel_epilogueAcc h _ _ _ _ _ _ _

theorem rel_init (h : ∀ a w p q, Rel (ld a w p q) (ld' a w p q)) (al : Bool) (w k : Nat) (p1 p2 : Int) :
    Rel (unrolledInitE t (opsOf R) ld al w k p1 p2) (unrolledInitE t (opsOf R) ld' al w k p1 p2) := by
  induction k generalizing p1 p2 with
  | zero => exact rel_pure _
  | succ k ih =>
    simp only [unrolledInitE]
    exact rel_bind (h _ _ _ _) fun _ => rel_bind (ih _ _) fun _ => rel_pure _

theorem rel_body (h : ∀ a w p q, Rel (ld a w p q) (ld' a w p q)) (al : Bool) (w : Nat) (accs : List (List τ)) (p1 p2 : Int) :
    Rel (unrolledBodyE t (opsOf R) ld al w accs p1 p2) (unrolledBodyE t (opsOf R) ld' al w accs p1 p2) := by
  induction accs generalizing p1 p2 with
  | nil => exact rel_pure _
  | cons a accs ih =>
    simp only [unrolledBodyE]
    exact rel_bind (h _ _ _ _) fun _ => rel_bind (rel_red _ _) fun _ => rel_bind (ih _ _) fun _ => rel_pure _

theorem rel_tree (U : Nat) (acc : List (List τ)) : Rel (treeReduceE (opsOf R) U acc : Eff σ _) (treeReduceE (opsOf R) U acc : Eff ρ _) := by
  unfold treeReduceE
  refine rel_foldlM (fun acc outer => rel_foldlM (fun acc ii => ?_) _ _) _ _
  unfold treeInnerE
  refine rel_ite (fun _ => ?_) fun _ => rel_pure _
  split
  · exact rel_bind (rel_red _ _) fun _ => rel_pure _
  · exact rel_pure _

theorem rel_while {S : Type} {cond : Int → Bool} {step : Nat} {body : Int → S → Eff σ S} {body' : Int → S → Eff ρ S}
    (h : ∀ i s, Rel (body i s) (body' i s)) (fuel : Nat) (pos : Int) (st : S) :
    Rel (whileE cond step body fuel pos st) (whileE cond step body' fuel pos st) := by
  induction fuel generalizing pos st with
  | zero => exact rel_lift _
  | succ fuel ih =>
    simp only [whileE]
    exact rel_ite (fun _ => rel_bind (h _ _) fun _ => ih _ _) fun _ => rel_pure _

theorem rel_firstLoad (h : ∀ a w p q, Rel (ld a w p q) (ld' a w p q)) (p1 p2 : Int) :
    Rel (firstLoadE t (opsOf R) ld p1 p2) (firstLoadE t (opsOf R) ld' p1 p2) :=
  rel_bind (h _ _ _ _) fun _ => rel_pure _

theorem rel_initAcc (h : ∀ a w p q, Rel (ld a w p q) (ld' a w p q)) (p1 p2 : Int) :
    Rel (initAccE t (opsOf R) ld p1 p2) (initAccE t (opsOf R) ld' p1 p2) := by
  unfold initAccE
  refine rel_ite (fun _ => rel_bind (rel_lift _) fun _ => rel_bind (rel_lift _) fun _ =>
    rel_ite (fun _ => rel_bind (rel_init h _ _ _ _ _) fun _ => ?_) fun _ => rel_firstLoad h _ _) fun _ => rel_firstLoad h _ _
  refine rel_bind (rel_bind (rel_body h _ _ _ _ _) fun _ => rel_pure _) fun _ =>
    rel_bind (rel_while (fun _ _ => rel_bind (rel_body h _ _ _ _ _) fun _ => rel_pure _) _ _ _) fun r => ?_
  exact rel_bind (rel_tree _ _) fun _ => rel_bind (rel_lift _) fun _ => rel_pure _

theorem rel_finish (h : ∀ a w p q, Rel (ld a w p q) (ld' a w p q)) (l : Nat) (acc1 : τ) (st : AccSt τ) :
    Rel (finishE t (opsOf R) ld l acc1 st) (finishE t (opsOf R) ld' l acc1 st) := by
  unfold finishE
  refine rel_ite (fun _ => rel_red1 _ _) fun _ => rel_ite (fun _ => rel_bind (rel_hredT _) fun _ => rel_red1 _ _) fun _ =>
    rel_ite (fun _ => rel_bind (rel_red _ _) fun _ => rel_epilogueAcc h _ _ _ _ _ _ _) fun _ => ?_
  exact rel_bind (rel_hredT _) fun _ => rel_bind (rel_red1 _ _) fun _ => rel_epilogueAcc h _ _ _ _ _ _ _

theorem rel_rest (h : ∀ a w p q, Rel (ld a w p q) (ld' a w p q)) (first : Int) (d : Nat) (acc1 : τ) :
    Rel (restE t (opsOf R) ld first d acc1) (restE t (opsOf R) ld' first d acc1) := by
  unfold restE
  refine rel_bind (rel_lift _) fun _ => rel_ite (fun _ => rel_bind (rel_initAcc h _ _) fun r => ?_) fun _ =>
    rel_ite (fun _ => rel_epilogue h _ _ _ _ _ _) fun _ => rel_lift _
  exact rel_bind (rel_while (fun _ _ => rel_bind (h _ _ _ _) fun _ => rel_bind (rel_red _ _) fun _ => rel_pure _) _ _ _) fun r =>
    rel_finish h _ _ _

theorem rel_transformReduce (h : ∀ a w p q, Rel (ld a w p q) (ld' a w p q)) (init : τ) :
    Rel (transformReduceL t (opsOf R) ld init) (transformReduceL t (opsOf R) ld' init) := by
  intro s s'
  unfold transformReduceL
  simp only
  split
  · rfl
  split
  · rfl
  split
  · exact rel_bind (rel_while (fun _ _ => rel_bind (h _ _ _ _) fun _ => rel_red1 _ _) _ _ _) (fun _ => rel_pure _) s s'
  -- the prologue
  have hpro : ∀ max tp x, erase (proE t (opsOf R) ld max tp (s, some x)) = erase (proE t (opsOf R) ld' max tp (s', some x)) :=
    fun max tp x => rel_prologue h max tp 0 x s s'
  have key : ∀ (a : Int) (b max tp : Nat),
      erase ((proE t (opsOf R) ld max tp (s, some init) >>= fun st => (Outcome.ok (a, b, st) : Outcome (Int × Nat × (σ × Option τ)))) >>=
        fun r => match r.2.2 with | (s, none) => .ok (s, none) | (s, some acc1) => restE t (opsOf R) ld r.1 r.2.1 acc1 s) =
      erase ((proE t (opsOf R) ld' max tp (s', some init) >>= fun st => (Outcome.ok (a, b, st) : Outcome (Int × Nat × (ρ × Option τ)))) >>=
        fun r => match r.2.2 with | (s, none) => .ok (s, none) | (s, some acc1) => restE t (opsOf R) ld' r.1 r.2.1 acc1 s) := by
    intro a b max tp
    have := hpro max tp init
    rcases h1 : proE t (opsOf R) ld max tp (s, some init) with ⟨u, _ | x⟩ | r | _ <;>
      rcases h2 : proE t (opsOf R) ld' max tp (s', some init) with ⟨u', _ | x'⟩ | r' | _ <;> rw [h1, h2] at this <;>
      simp only [erase, Outcome.ok.injEq, Outcome.ub.injEq, reduceCtorEq, Option.some.injEq] at this
    · rfl
    · subst this; exact rel_rest h _ _ _ u u'
    · subst this; rfl
    · rfl
  unfold runPrologue
  split
  · split
    · exact rel_rest h _ _ _ s s'
    · split
      · exact key _ _ _ _
      · split
        · exact key _ _ _ _
        · exact rel_rest h _ _ _ s s'
  · exact rel_rest h _ _ _ s s'

end TransformReduce

namespace Threads
open TransformReduce Eff Transform

variable {ρ α β τ : Type}

theorem readEach_eq {mems : Nat → List α} {mem : List α} (w a : Nat) (h : ∀ k i, a ≤ i → i < a + w → (mems k)[i]? = mem[i]?)
    (hl : a + w ≤ mem.length) (k : Nat) : readEach mems a w k = .ok (k + w, some ((mem.drop a).take w)) := by
  induction w generalizing a k with
  | zero => simp [readEach]; rfl
  | succ w ih =>
    have h0 : (mems k)[a]? = some mem[a] := by rw [h k a (Nat.le_refl _) (by omega), List.getElem?_eq_getElem (by omega)]
    simp only [readEach, h0, bind_def]
    rw [ih (a + 1) (fun k i h1 h2 => h k i (by omega) (by omega)) (by omega) (k + 1)]
    have : mem.drop a = mem[a] :: mem.drop (a + 1) := List.drop_eq_getElem_cons (by omega)
    simp only [this, List.take_succ_cons]
    show Outcome.ok (k + 1 + w, _) = _
    congr 2; omega

theorem loadTimed_rel {t : TEnv} {mems : Nat → List α} {mem : List α} {base : Nat} (hl : base + t.n ≤ mem.length)
    (h : ∀ k i, base ≤ i → i < base + t.n → (mems k)[i]? = mem[i]?) (w : Nat) (pos : Int) :
    Rel (loadTimed t mems w base pos) (lift (loadIn t mem w base pos) : Eff ρ _) := by
  intro s s'
  unfold loadTimed loadIn
  by_cases hr : inRange t.n pos w = true
  · have hr' := hr
    simp only [inRange, decide_eq_true_eq] at hr
    have h2 : inRange mem.length ((base : Int) + pos) w = true := by simp only [inRange, decide_eq_true_eq]; omega
    rw [if_pos hr', hr', h2, if_pos (by rfl)]
    have e : ((base : Int) + pos).toNat = base + pos.toNat := by omega
    rw [e, readEach_eq w _ (fun k i h1 h2 => h k i (by omega) (by omega)) (by omega)]
    rfl
  · rw [if_neg hr, if_neg (by simp [hr])]; rfl

theorem loadsTimed_rel {t : TEnv} {mems : Nat → List α} {mem : List α} {bs : List Nat} (hl : ∀ b ∈ bs, b + t.n ≤ mem.length)
    (h : ∀ b ∈ bs, ∀ k i, b ≤ i → i < b + t.n → (mems k)[i]? = mem[i]?) (w : Nat) (pos : Int) :
    Rel (loadsTimed t mems w pos bs) (lift (loadIns t mem w pos bs) : Eff ρ _) := by
  induction bs with
  | nil => exact rel_pure _
  | cons b bs ih =>
    simp only [loadsTimed, loadIns, lift_bind]
    exact rel_bind (loadTimed_rel (hl b (by simp)) (h b (by simp)) w pos) fun _ =>
      rel_bind (ih (fun b hb => hl b (by simp [hb])) fun b hb => h b (by simp [hb])) fun _ => rel_pure _

theorem loadInvokeTimed_rel {R : REnv α β τ} {mems : Nat → List α} {mem : List α} (hl : ∀ b ∈ R.ins, b + R.n ≤ mem.length)
    (h : ∀ b ∈ R.ins, ∀ k i, b ≤ i → i < b + R.n → (mems k)[i]? = mem[i]?) (a : Bool) (w : Nat) (p1 p2 : Int) :
    Rel (loadInvokeTimed (REnv.t R) (opsOf R) mems a w p1 p2) (loadInvokeE (REnv.t R) (opsOf R) mem a w p1 p2 : Eff ρ _) := by
  unfold loadInvokeTimed loadInvokeE
  show Rel (match R.ins with | [] => _ | b1 :: bs => _) (match R.ins with | [] => _ | b1 :: bs => _)
  cases hi : R.ins with
  | nil => exact rel_lift _
  | cons b bs =>
    rw [hi] at hl h
    refine rel_bind ?_ fun _ => rel_bind (loadsTimed_rel (t := REnv.t R) (mems := mems) (mem := mem) (bs := bs) (fun b hb => hl b (by simp [hb])) (fun b hb => h b (by simp [hb])) _ _) fun _ => ?_
    · unfold loadFlagTimed
      rw [lift_ite]
      exact rel_ite (fun _ => rel_lift _) fun _ => loadTimed_rel (hl b (by simp)) (h b (by simp)) _ _
    · intro s s'; rfl

theorem transformReduceTimed_eq {R : REnv α β τ} {mems : Nat → List α} {mem : List α} (hl : ∀ b ∈ R.ins, b + R.n ≤ mem.length)
    (h : ∀ b ∈ R.ins, ∀ k i, b ≤ i → i < b + R.n → (mems k)[i]? = mem[i]?) (init : τ) (k : Nat) :
    ∃ k', transformReduceTimed (REnv.t R) (opsOf R) mems init k = (transformReduce R mem init >>= fun v => .ok (k', some v)) := by
  have := rel_transformReduce (R := R) (t := REnv.t R) (fun a w p q => loadInvokeTimed_rel (ρ := Unit) hl h a w p q) init k ()
  have he := transformReduceE_eq (σ := Unit) R mem init
  unfold transformReduceE at he
  rw [he] at this
  unfold transformReduceTimed
  rcases h1 : transformReduceL (REnv.t R) (opsOf R) (loadInvokeTimed (REnv.t R) (opsOf R) mems) init k with ⟨k', _ | v⟩ | r | _ <;>
    rw [h1] at this <;> cases h2 : transformReduce R mem init <;> rw [h2] at this <;> simp only [erase, lift, Outcome.bind_ok, Outcome.bind_ub, Outcome.bind_trap, Outcome.ok.injEq, Outcome.ub.injEq, reduceCtorEq, Option.some.injEq] at this
  · exact ⟨k', by rw [this]; rfl⟩
  · exact ⟨0, by rw [this]; rfl⟩
  · exact ⟨0, rfl⟩

/-! ### memory that changes in any way -/

theorem readEach_any {mems : Nat → List α} (w a : Nat) (hl : ∀ k, a + w ≤ (mems k).length) (k : Nat) :
    ∃ v, readEach mems a w k = .ok (k + w, some v) ∧ v.length = w := by
  induction w generalizing a k with
  | zero => exact ⟨[], rfl, rfl⟩
  | succ w ih =>
    have := hl k
    have h0 : (mems k)[a]? = some (mems k)[a] := List.getElem?_eq_getElem (by omega)
    obtain ⟨v, h1, h2⟩ := ih (a + 1) (fun k => by have := hl k; omega) (k + 1)
    refine ⟨(mems k)[a] :: v, ?_, by simp [h2]⟩
    simp only [readEach, h0, bind_def]
    rw [h1]
    show Outcome.ok (k + 1 + w, _) = _
    congr 2; omega

theorem loadTimed_any {t : TEnv} {mems : Nat → List α} {base : Nat} (hl : ∀ k, base + t.n ≤ (mems k).length) {w p : Nat}
    (hp : p + w ≤ t.n) (k : Nat) : ∃ v, loadTimed t mems w base p k = .ok (k + w, some v) ∧ v.length = w := by
  have hr : inRange t.n p w = true := by simp only [inRange, decide_eq_true_eq]; omega
  unfold loadTimed
  rw [if_pos hr]
  exact readEach_any w _ (fun k => by have := hl k; omega) k

theorem loadsTimed_any {t : TEnv} {mems : Nat → List α} {bs : List Nat} (hl : ∀ b ∈ bs, ∀ k, b + t.n ≤ (mems k).length) {w p : Nat}
    (hp : p + w ≤ t.n) (k : Nat) : ∃ v, loadsTimed t mems w p bs k = .ok (k + w * bs.length, some v) ∧ ∀ c ∈ v, c.length = w := by
  induction bs generalizing k with
  | nil => exact ⟨[], rfl, by simp⟩
  | cons b bs ih =>
    obtain ⟨c, h1, h2⟩ := loadTimed_any (hl b (by simp)) hp k
    obtain ⟨cs, h3, h4⟩ := ih (fun b hb => hl b (by simp [hb])) (k + w)
    refine ⟨c :: cs, ?_, by simpa [h2] using h4⟩
    simp only [loadsTimed, bind_def, h1, h3]
    show Outcome.ok (k + w + w * bs.length, _) = _
    congr 2
    rw [List.length_cons, Nat.mul_succ]; omega

theorem timed_prims {R : REnv α β τ} {mems : Nat → List α} (ne : R.ins ≠ []) (hl : ∀ b ∈ R.ins, ∀ k, b + R.n ≤ (mems k).length) (k0 : Nat) :
    Prims (fun p _ s => s = k0 + p * R.ins.length) (fun _ => False) (fun _ => False) (REnv.t R) (opsOf R)
      (loadInvokeTimed (REnv.t R) (opsOf R) mems) where
  load aligned p w ha hp hw u := by
    rintro s rfl
    left
    unfold loadInvokeTimed
    show ∃ s' a, (match R.ins with | [] => _ | b1 :: bs => _ : Eff Nat (List β)) _ = _ ∧ _
    cases hi : R.ins with
    | nil => exact absurd hi ne
    | cons b bs =>
      rw [hi] at hl
      obtain ⟨c, h1, h2⟩ := loadTimed_any (t := REnv.t R) (hl b (by simp)) hp (k0 + p * (b :: bs).length)
      obtain ⟨cs, h3, h4⟩ := loadsTimed_any (t := REnv.t R) (bs := bs) (fun b hb => hl b (by simp [hb])) hp (k0 + p * (b :: bs).length + w)
      have h5 : loadFlagTimed (REnv.t R) mems aligned w b p = loadTimed (REnv.t R) mems w b p := by
        unfold loadFlagTimed
        cases aligned
        · rfl
        · rw [ha rfl]; rfl
      refine ⟨k0 + p * (b :: bs).length + w + w * bs.length, R.trans.call (c :: cs), ?_, ?_, ?_⟩
      · simp only [bind_def, h5, h1, h3]; rfl
      · show _ = k0 + (p + w) * (b :: bs).length
        rw [Nat.add_mul, List.length_cons, Nat.mul_succ, Nat.mul_succ]; omega
      · exact R.trans.shape w _ (by simp) (by simpa [h2] using h4)
  red p u x y hxy _ := by
    rintro s rfl
    exact Or.inl ⟨_, _, rfl, rfl, by simp [hxy]⟩
  hredT p u v _ _ := by
    rintro s rfl
    exact Or.inl ⟨_, _, rfl, rfl, trivial⟩
  hredB p u v _ _ := by
    rintro s rfl
    exact Or.inl ⟨_, _, rfl, rfl, trivial⟩

end Threads
end Vir
