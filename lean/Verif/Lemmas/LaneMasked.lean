import Verif.Lemmas.LaneProg

/-! # Masked programs, helper lemmas -/

namespace Vir.LaneProg
open Simd Spec Spec.OneLane
open SimdProg (choose_below bound_below)

variable {α : Type} {nv nm w : Nat} {V M G : Nat → Prop}

/-! ### states that differ in local variables only -/

theorem same_refl (l : Vars α) : Same V M l l := ⟨rfl, rfl, fun _ _ => rfl, fun _ _ => rfl⟩

theorem _root_.Vir.Spec.OneLane.Same.symm {l l' : Vars α} (h : Same V M l l') : Same V M l' l :=
  ⟨h.vars.symm, h.masks.symm, fun k hk => (h.var k hk).symm, fun j hj => (h.mask j hj).symm⟩

theorem _root_.Vir.Spec.OneLane.Same.trans {l l' l'' : Vars α} (h : Same V M l l') (h' : Same V M l' l'') : Same V M l l'' :=
  ⟨h.vars.trans h'.vars, h.masks.trans h'.masks, fun k hk => (h.var k hk).trans (h'.var k hk), fun j hj => (h.mask j hj).trans (h'.mask j hj)⟩

theorem _root_.Vir.Spec.OneLane.Same.mono {V' M' : Nat → Prop} {l l' : Vars α} (h : Same V' M' l l') (hV : ∀ k, V' k → V k) (hM : ∀ j, M' j → M j) : Same V M l l' :=
  ⟨h.vars, h.masks, fun k hk => h.var k fun h => hk (hV k h), fun j hj => h.mask j fun h => hj (hM j h)⟩

theorem _root_.Vir.Spec.OneLane.Same.fits {l l' : Vars α} (h : Same V M l l') (hl : Fits nv nm l) : Fits nv nm l' := ⟨h.vars ▸ hl.vars, h.masks ▸ hl.masks⟩

theorem _root_.Vir.Spec.OneLane.Same.setV {l l' : Vars α} (h : Same V M l l') (k : Nat) (v : α) : Same V M (l.1.set k v, l.2) (l'.1.set k v, l'.2) := by
  refine ⟨by simpa using h.vars, h.masks, fun x hx => ?_, h.mask⟩
  rw [List.getElem?_set, List.getElem?_set, h.var x hx, h.vars]

theorem _root_.Vir.Spec.OneLane.Same.setM {l l' : Vars α} (h : Same V M l l') (j : Nat) (b : Bool) : Same V M (l.1, l.2.set j b) (l'.1, l'.2.set j b) := by
  refine ⟨h.vars, by simpa using h.masks, h.var, fun x hx => ?_⟩
  rw [List.getElem?_set, List.getElem?_set, h.mask x hx, h.masks]

theorem _root_.Vir.Spec.OneLane.Same.setV_minus {l l' : Vars α} (h : Same V M l l') (k : Nat) (v : α) : Same (Minus V k) M (l.1.set k v, l.2) (l'.1.set k v, l'.2) := by
  refine ⟨by simpa using h.vars, h.masks, fun x hx => ?_, h.mask⟩
  rw [List.getElem?_set, List.getElem?_set, h.vars]
  by_cases hk : k = x
  · rw [if_pos hk, if_pos hk]
  · rw [if_neg hk, if_neg hk]; exact h.var x fun hv => hx ⟨hv, fun e => hk e.symm⟩

theorem _root_.Vir.Spec.OneLane.Same.setM_minus {l l' : Vars α} (h : Same V M l l') (j : Nat) (b : Bool) : Same V (Minus M j) (l.1, l.2.set j b) (l'.1, l'.2.set j b) := by
  refine ⟨h.vars, by simpa using h.masks, h.var, fun x hx => ?_⟩
  rw [List.getElem?_set, List.getElem?_set, h.masks]
  by_cases hk : j = x
  · rw [if_pos hk, if_pos hk]
  · rw [if_neg hk, if_neg hk]; exact h.mask x fun hv => hx ⟨hv, fun e => hk e.symm⟩

theorem same_setV (l : Vars α) {k : Nat} (hk : V k) (v : α) : Same V M (l.1.set k v, l.2) l := by
  refine ⟨by simp, rfl, fun x hx => ?_, fun _ _ => rfl⟩
  simp only []
  rw [List.getElem?_set_ne]
  rintro rfl; exact hx hk

theorem same_setM (l : Vars α) {j : Nat} (hj : M j) (b : Bool) : Same V M (l.1, l.2.set j b) l := by
  refine ⟨rfl, by simp, fun _ _ => rfl, fun x hx => ?_⟩
  simp only []
  rw [List.getElem?_set_ne]
  rintro rfl; exact hx hj

theorem value_same {i : Nat} {l l' : Vars α} (h : Same V M l l') {e : Ex α} {v : α} (he : ExAvoids V e) (hv : Value i l.1 e v) : Value i l'.1 e v := by
  induction hv with
  | var hk => exact .var (h.var _ he ▸ hk)
  | gen hf => exact .gen hf
  | un _ hf ih => exact .un (ih he) hf
  | bin _ _ hf iha ihb => exact .bin (iha he.1) (ihb he.2) hf

theorem cond_same {i : Nat} {l l' : Vars α} (h : Same V M l l') {m : Mk α} {b : Bool} (hm : MkAvoids V M m) (hv : Cond i l m b) : Cond i l' m b := by
  induction hv with
  | mvar hk => exact .mvar (h.mask _ hm ▸ hk)
  | cmp ha hb => exact .cmp (value_same h hm.1 ha) (value_same h hm.2 hb)
  | and _ _ iha ihb => exact .and (iha hm.1) (ihb hm.2)
  | or _ _ iha ihb => exact .or (iha hm.1) (ihb hm.2)
  | not _ ih => exact .not (ih hm)

theorem value_unique {i : Nat} {xs : List α} {e : Ex α} {v v' : α} (h : Value i xs e v) (h' : Value i xs e v') : v = v' := by
  induction h generalizing v' with
  | var h => cases h' with | var h' => exact Option.some.inj (h.symm.trans h')
  | gen h => cases h' with | gen h' => exact Outcome.ok.inj (h.symm.trans h')
  | un _ h ih => cases h' with | un g1 g2 => rw [ih g1] at h; exact Outcome.ok.inj (h.symm.trans g2)
  | bin _ _ h iha ihb => cases h' with | bin g1 g2 g3 => rw [iha g1, ihb g2] at h; exact Outcome.ok.inj (h.symm.trans g3)

theorem cond_unique {i : Nat} {l : Vars α} {m : Mk α} {b b' : Bool} (h : Cond i l m b) (h' : Cond i l m b') : b = b' := by
  induction h generalizing b' with
  | mvar h => cases h' with | mvar h' => exact Option.some.inj (h.symm.trans h')
  | cmp h1 h2 => cases h' with | cmp g1 g2 => rw [value_unique h1 g1, value_unique h2 g2]
  | and _ _ iha ihb => cases h' with | and g1 g2 => rw [iha g1, ihb g2]
  | or _ _ iha ihb => cases h' with | or g1 g2 => rw [iha g1, ihb g2]
  | not _ ih => cases h' with | not g => rw [ih g]

/-! ### lanes that are not active -/

/-- The masks of `G` are false. -/
def Off (G : Nat → Prop) (l : Vars α) : Prop := ∀ j, G j → ∀ b, l.2[j]? = some b → b = false

theorem guarded_false {i : Nat} {l : Vars α} (h : Off G l) {m : Mk α} {b : Bool} (hm : Guarded G m) (hv : Cond i l m b) : b = false := by
  induction hv with
  | mvar hk => exact h _ hm _ hk
  | cmp => exact hm.elim
  | and _ _ iha ihb =>
    rcases hm with hm | hm
    · rw [iha hm]; rfl
    · rw [ihb hm, Bool.and_false]
  | or _ _ iha ihb => rw [iha hm.1, ihb hm.2]; rfl
  | not => exact hm.elim

theorem Off.same {l l' : Vars α} (h : Off G l) (hs : Same V M l' l) (hd : ∀ j, G j → ¬ M j) : Off G l' :=
  fun j hj b hb => h j hj b (hs.mask j (hd j hj) ▸ hb)

theorem off_local {G' : Nat → Prop} {i j : Nat} {m : Mk α} {b : Bool} {l : Vars α} (h : Off G l) (hc : Cond i l m b)
    (hG : ∀ x, G' x → Minus G j x ∨ x = j ∧ Guarded G m) : Off G' (l.1, l.2.set j b) := by
  intro x hx c hcx
  simp only [] at hcx
  rcases hG x hx with ⟨h1, h2⟩ | ⟨rfl, h2⟩
  · rw [List.getElem?_set_ne (fun e => h2 e.symm)] at hcx
    exact h x h1 c hcx
  · rw [List.getElem?_set] at hcx
    simp only [if_true] at hcx
    split at hcx
    · rw [← Option.some.inj hcx]; exact guarded_false h h2 hc
    · cases hcx

theorem disj_local {G' : Nat → Prop} {j : Nat} {P : Prop} (hd : ∀ x, G x → ¬ M x) (hG : ∀ x, G' x → Minus G j x ∨ x = j ∧ P) :
    ∀ x, G' x → ¬ Minus M j x := by
  rintro x hx ⟨h1, h2⟩
  rcases hG x hx with ⟨h3, _⟩ | ⟨rfl, _⟩
  · exact hd x h3 h1
  · exact h2 rfl

/-- A lane that is not active keeps all variables but local ones. -/
theorem idle_same {I : Prop} {i : Nat} {top : Bool} {p : Stmt α} (hp : Masked top G V M p) : top = false → (∀ j, G j → ¬ M j) →
    ∀ l l' : Vars α, Off G l → Run I i p l l' → Same V M l' l := by
  induction hp with
  | skip => intro _ _ l l' _ h; cases h; exact same_refl _
  | seq _ _ iha ihb =>
    intro ht hd l l' ho h
    cases h with
    | seq h1 h2 =>
      have := iha ht hd _ _ ho h1
      exact (ihb ht hd _ _ (ho.same this hd) h2).trans this
  | assign => intro ht; cases ht
  | compound => intro ht; cases ht
  | whereAssign _ _ _ hg =>
    intro ht hd l l' ho h
    cases h with
    | where_true h1 => exact absurd (guarded_false ho (hg ht) h1) (by decide)
    | where_false => exact same_refl _
  | whereCompound _ _ _ hg =>
    intro ht hd l l' ho h
    cases h with
    | whereCompound_true h1 => exact absurd (guarded_false ho (hg ht) h1) (by decide)
    | whereCompound_false => exact same_refl _
  | @setMask _ _ _ _ j _ _ _ hg =>
    intro ht hd l l' ho h
    cases h with
    | setMask h1 =>
      have := guarded_false ho (hg ht).2 h1
      subst this
      refine ⟨rfl, by simp, fun _ _ => rfl, fun x hx => ?_⟩
      simp only []
      rw [List.getElem?_set]
      split
      · rename_i hj
        subst hj
        split
        · rename_i hlt
          rw [List.getElem?_eq_getElem hlt]
          congr 1
          exact (ho j (hg ht).1 _ (List.getElem?_eq_getElem hlt)).symm
        · rename_i hlt
          rw [List.getElem?_eq_none (by omega)]
      · rfl
  | whereMask _ _ _ hg =>
    intro ht hd l l' ho h
    cases h with
    | whereMask_true h1 => exact absurd (guarded_false ho (hg ht) h1) (by decide)
    | whereMask_false => exact same_refl _
  | localVar hk _ _ ih =>
    intro ht hd l l' ho h
    cases h with
    | seq h1 h2 =>
      cases h1 with
      | assign h1 =>
        exact ((ih ht hd (l.1.set _ _, l.2) _ ho h2).mono (fun _ h => h.1) fun _ h => h).trans (same_setV l hk _)
  | localMask hj _ hG _ ih =>
    intro ht hd l l' ho h
    cases h with
    | seq h1 h2 =>
      cases h1 with
      | setMask h1 =>
        exact ((ih ht (disj_local hd hG) _ _ (off_local ho h1 hG) h2).mono (fun _ h => h) fun _ h => h.1).trans (same_setM l hj _)
  | @loop top G V M j body hj hg hb ih =>
    intro ht hd l l' ho h
    generalize hq : Stmt.loop (.mvar j) body = q at h
    induction h with
    | again hc _ hbody _ _ ihl =>
      cases hq
      have hoj : Off (· = j) _ := fun x hx b hb => by subst hx; exact ho x (hg ht) b hb
      have := ih rfl (fun x hx => hx ▸ hj) _ _ hoj hbody
      exact (ihl (ho.same this hd) rfl).trans this
    | leave => exact same_refl _
    | _ => cases hq

/-- The simple statements of a masked program do the same, whatever the local variables are. -/
theorem simple_same {I J : Prop} {i : Nat} {p : Stmt α} (hs : NoLoops p) (hq : ∀ a b, p ≠ .seq a b) {top : Bool} (hp : Masked top G V M p)
    {l l₁ l' : Vars α} (h : Same V M l l₁) (hr : Run I i p l l') : ∃ l₁', Run J i p l₁ l₁' ∧ Same V M l' l₁' := by
  cases hp with
  | skip => cases hr; exact ⟨_, .skip, h⟩
  | seq => exact absurd rfl (hq _ _)
  | assign hk he => cases hr with | assign h1 => exact ⟨_, .assign (value_same h he h1), h.setV _ _⟩
  | compound hk he =>
    cases hr with | compound h1 h2 h3 => exact ⟨_, .compound (value_same h he h1) (h.var _ hk ▸ h2) h3, h.setV _ _⟩
  | whereAssign hk he hm =>
    cases hr with
    | where_true h1 h2 => exact ⟨_, .where_true (cond_same h hm h1) (value_same h he h2), h.setV _ _⟩
    | where_false h1 h2 => exact ⟨_, .where_false (cond_same h hm h1) (value_same h he h2), h⟩
  | whereCompound hk he hm =>
    cases hr with
    | whereCompound_true h1 h2 h3 h4 =>
      exact ⟨_, .whereCompound_true (cond_same h hm h1) (value_same h he h2) (h.var _ hk ▸ h3) h4, h.setV _ _⟩
    | whereCompound_false h1 h2 => exact ⟨_, .whereCompound_false (cond_same h hm h1) (value_same h he h2), h⟩
  | setMask hj hm => cases hr with | setMask h1 => exact ⟨_, .setMask (cond_same h hm h1), h.setM _ _⟩
  | whereMask hj hm hm' =>
    cases hr with
    | whereMask_true h1 h2 => exact ⟨_, .whereMask_true (cond_same h hm h1) (cond_same h hm' h2), h.setM _ _⟩
    | whereMask_false h1 h2 => exact ⟨_, .whereMask_false (cond_same h hm h1) (cond_same h hm' h2), h⟩
  | localVar => exact absurd rfl (hq _ _)
  | localMask => exact absurd rfl (hq _ _)
  | loop => exact hs.elim

/-- What a lane does in a masked program, iterations that only other lanes need included, the program on single elements does. -/
theorem masked_run {i : Nat} {top : Bool} {p : Stmt α} (hp : Masked top G V M p) : ∀ l l₁ l' : Vars α, Same V M l l₁ →
    Run True i p l l' → ∃ l₁', Run False i p l₁ l₁' ∧ Same V M l' l₁' := by
  induction hp with
  | seq _ _ iha ihb =>
    intro l l₁ l' h hr
    cases hr with
    | seq h1 h2 =>
      obtain ⟨m, g1, g2⟩ := iha _ _ _ h h1
      obtain ⟨m', g3, g4⟩ := ihb _ _ _ g2 h2
      exact ⟨m', .seq g1 g3, g4⟩
  | localVar hk he _ ih =>
    intro l l₁ l' h hr
    cases hr with
    | seq h1 h2 =>
      cases h1 with
      | assign h1 =>
        obtain ⟨m, g1, g2⟩ := ih _ _ _ (h.setV_minus _ _) h2
        exact ⟨m, .seq (.assign (value_same h he h1)) g1, g2.mono (fun _ h => h.1) fun _ h => h⟩
  | localMask hj hm _ _ ih =>
    intro l l₁ l' h hr
    cases hr with
    | seq h1 h2 =>
      cases h1 with
      | setMask h1 =>
        obtain ⟨m, g1, g2⟩ := ih _ _ _ (h.setM_minus _ _) h2
        exact ⟨m, .seq (.setMask (cond_same h hm h1)) g1, g2.mono (fun _ h => h) fun _ h => h.1⟩
  | @loop top G V M j body hj hg hb ih =>
    intro l l₁ l' h hr
    generalize hq : Stmt.loop (.mvar j) body = q at hr
    induction hr generalizing l₁ with
    | @again m body' c l l' l'' hc _ hbody _ _ ihl =>
      cases hq
      cases c with
      | true =>
        obtain ⟨m, g1, g2⟩ := ih _ _ _ h hbody
        obtain ⟨m', g3, g4⟩ := ihl _ g2 rfl
        exact ⟨m', .again (cond_same h hj hc) (fun h => by cases h) g1 g3, g4⟩
      | false =>
        have hoj : Off (· = j) l := fun x hx b hxb => by
          subst hx
          cases hc with | mvar hc => exact Option.some.inj (hxb.symm.trans hc)
        have := idle_same hb rfl (fun x hx => hx ▸ hj) _ _ hoj hbody
        exact ihl _ (this.trans h) rfl
    | leave hc => cases hq; exact ⟨_, .leave (cond_same h hj hc), h⟩
    | _ => cases hq
  | skip => intro l l₁ l' h hr; exact simple_same (by trivial) (fun _ _ h => by cases h) (.skip (top := true) (G := fun _ => False)) h hr
  | assign h1 h2 => intro l l₁ l' h hr; exact simple_same (by trivial) (fun _ _ h => by cases h) (.assign h1 h2 (G := fun _ => False)) h hr
  | compound h1 h2 => intro l l₁ l' h hr; exact simple_same (by trivial) (fun _ _ h => by cases h) (.compound h1 h2 (G := fun _ => False)) h hr
  | whereAssign h1 h2 h3 h4 => intro l l₁ l' h hr; exact simple_same (by trivial) (fun _ _ h => by cases h) (.whereAssign h1 h2 h3 h4) h hr
  | whereCompound h1 h2 h3 h4 => intro l l₁ l' h hr; exact simple_same (by trivial) (fun _ _ h => by cases h) (.whereCompound h1 h2 h3 h4) h hr
  | setMask h1 h2 h3 => intro l l₁ l' h hr; exact simple_same (by trivial) (fun _ _ h => by cases h) (.setMask h1 h2 h3) h hr
  | whereMask h1 h2 h3 h4 => intro l l₁ l' h hr; exact simple_same (by trivial) (fun _ _ h => by cases h) (.whereMask h1 h2 h3 h4) h hr

/-- The program on single elements has one result. -/
theorem run_unique {i : Nat} {p : Stmt α} {l a b : Vars α} (h : Run False i p l a) (h' : Run False i p l b) : a = b := by
  induction h generalizing b with
  | skip => cases h'; rfl
  | seq _ _ iha ihb => cases h' with | seq g1 g2 => rw [← iha g1] at g2; exact ihb g2
  | assign h => cases h' with | assign g => rw [value_unique h g]
  | compound h1 h2 h3 =>
    cases h' with
    | compound g1 g2 g3 =>
      cases Option.some.inj (h2.symm.trans g2)
      cases value_unique h1 g1
      rw [Outcome.ok.inj (h3.symm.trans g3)]
  | where_true h1 h2 =>
    cases h' with
    | where_true g1 g2 => rw [value_unique h2 g2]
    | where_false g1 => exact absurd (cond_unique h1 g1) (by decide)
  | where_false h1 h2 =>
    cases h' with
    | where_true g1 g2 => exact absurd (cond_unique h1 g1) (by decide)
    | where_false g1 => rfl
  | whereCompound_true h1 h2 h3 h4 =>
    cases h' with
    | whereCompound_true g1 g2 g3 g4 =>
      cases Option.some.inj (h3.symm.trans g3)
      cases value_unique h2 g2
      rw [Outcome.ok.inj (h4.symm.trans g4)]
    | whereCompound_false g1 => exact absurd (cond_unique h1 g1) (by decide)
  | whereCompound_false h1 h2 =>
    cases h' with
    | whereCompound_true g1 g2 => exact absurd (cond_unique h1 g1) (by decide)
    | whereCompound_false g1 => rfl
  | setMask h => cases h' with | setMask g => rw [cond_unique h g]
  | whereMask_true h1 h2 =>
    cases h' with
    | whereMask_true g1 g2 => rw [cond_unique h2 g2]
    | whereMask_false g1 => exact absurd (cond_unique h1 g1) (by decide)
  | whereMask_false h1 h2 =>
    cases h' with
    | whereMask_true g1 g2 => exact absurd (cond_unique h1 g1) (by decide)
    | whereMask_false g1 => rfl
  | @again m body c _ _ _ hc hi _ _ iha ihb =>
    cases c with
    | false => exact (hi rfl).elim
    | true =>
      cases h' with
      | again _ _ g1 g2 => rw [← iha g1] at g2; exact ihb g2
      | leave g => exact absurd (cond_unique hc g) (by decide)
  | leave hc =>
    cases h' with
    | @again _ _ c _ _ _ g hi => exact (hi (cond_unique g hc)).elim
    | leave => rfl

/-! ### from the lanes to the simd program -/

theorem value_total {i : Nat} {l : Vars α} (hl : Fits nv nm l) {e : Ex α} (he : ExUses nv e) (ht : ExTotal e) : ∃ v, Value i l.1 e v := by
  induction e with
  | var k => exact ⟨_, .var (List.getElem?_eq_getElem (by rw [hl.vars]; exact he))⟩
  | gen f => obtain ⟨v, hv⟩ := ht i; exact ⟨v, .gen hv⟩
  | un f a iha =>
    obtain ⟨x, hx⟩ := iha he ht.2
    obtain ⟨v, hv⟩ := ht.1 x
    exact ⟨v, .un hx hv⟩
  | bin f a b iha ihb =>
    obtain ⟨x, hx⟩ := iha he.1 ht.2.1
    obtain ⟨y, hy⟩ := ihb he.2 ht.2.2
    obtain ⟨v, hv⟩ := ht.1 x y
    exact ⟨v, .bin hx hy hv⟩

theorem cond_total {i : Nat} {l : Vars α} (hl : Fits nv nm l) {m : Mk α} (hm : MkUses nv nm m) (ht : MkTotal m) : ∃ b, Cond i l m b := by
  induction m with
  | mvar j => exact ⟨_, .mvar (List.getElem?_eq_getElem (by rw [hl.masks]; exact hm))⟩
  | cmp r a b =>
    obtain ⟨x, hx⟩ := value_total (i := i) hl hm.1 ht.1
    obtain ⟨y, hy⟩ := value_total (i := i) hl hm.2 ht.2
    exact ⟨_, .cmp hx hy⟩
  | and a b iha ihb =>
    obtain ⟨x, hx⟩ := iha hm.1 ht.1
    obtain ⟨y, hy⟩ := ihb hm.2 ht.2
    exact ⟨_, .and hx hy⟩
  | or a b iha ihb =>
    obtain ⟨x, hx⟩ := iha hm.1 ht.1
    obtain ⟨y, hy⟩ := ihb hm.2 ht.2
    exact ⟨_, .or hx hy⟩
  | not a iha => obtain ⟨x, hx⟩ := iha hm ht; exact ⟨_, .not hx⟩

/-- A simple statement runs in a lane that is not active. -/
theorem idle_runs {i : Nat} {p : Stmt α} (hs : NoLoops p) (hq : ∀ a b, p ≠ .seq a b) (hp : Masked false G V M p) (hu : Uses nv nm p)
    (ht : OperandsTotal p) {l : Vars α} (hl : Fits nv nm l) (ho : Off G l) : ∃ l', Run False i p l l' := by
  cases hp with
  | skip => exact ⟨_, .skip⟩
  | seq => exact absurd rfl (hq _ _)
  | whereAssign _ _ _ hg =>
    obtain ⟨b, hb⟩ := cond_total (i := i) hl hu.1 ht.1
    obtain ⟨v, hv⟩ := value_total (i := i) hl hu.2.2 ht.2
    have := guarded_false ho (hg rfl) hb
    subst this
    exact ⟨_, .where_false hb hv⟩
  | whereCompound _ _ _ hg =>
    obtain ⟨b, hb⟩ := cond_total (i := i) hl hu.1 ht.1
    obtain ⟨v, hv⟩ := value_total (i := i) hl hu.2.2 ht.2
    have := guarded_false ho (hg rfl) hb
    subst this
    exact ⟨_, .whereCompound_false hb hv⟩
  | setMask =>
    obtain ⟨b, hb⟩ := cond_total (i := i) hl hu.2 ht
    exact ⟨_, .setMask hb⟩
  | whereMask _ _ _ hg =>
    obtain ⟨b, hb⟩ := cond_total (i := i) hl hu.1 ht.1
    obtain ⟨v, hv⟩ := cond_total (i := i) hl hu.2.2 ht.2
    have := guarded_false ho (hg rfl) hb
    subst this
    exact ⟨_, .whereMask_false hb hv⟩
  | localVar => exact absurd rfl (hq _ _)
  | localMask => exact absurd rfl (hq _ _)
  | loop => exact hs.elim

theorem loopsTotal_of {p : Stmt α} (h : OperandsTotal p) : LoopsTotal p := by
  induction p with
  | seq a b iha ihb => exact ⟨iha h.1, ihb h.2⟩
  | loop m body _ => exact h.2
  | _ => trivial

/-- What becomes of a lane: either it runs the program on single elements, or it is not active. -/
def Fate (top : Bool) (G V M : Nat → Prop) (i : Nat) (p : Stmt α) (l t : Vars α) : Prop :=
  (∃ l₁, Same V M l l₁ ∧ Run False i p l₁ t) ∨ top = false ∧ Off G l ∧ Same V M l t

/-- The lane leaves the loop over mask `j` after `c` iterations. -/
def Left (i j : Nat) (body : Stmt α) : Nat → Vars α → Vars α → Prop
  | 0, l, t => l.2[j]? = some false ∧ t = l
  | c + 1, l, t => l.2[j]? = some true ∧ ∃ l', Run False i body l l' ∧ Left i j body c l' t

theorem left_of {i j : Nat} {body : Stmt α} {l t : Vars α} (h : Run False i (.loop (.mvar j) body) l t) : ∃ c, Left i j body c l t := by
  generalize hq : Stmt.loop (.mvar j) body = q at h
  induction h with
  | @again _ _ c _ _ _ hc hi hb _ _ ih =>
    cases hq
    cases c with
    | false => exact (hi rfl).elim
    | true =>
      obtain ⟨c, h⟩ := ih rfl
      cases hc with | mvar hc => exact ⟨c + 1, hc, _, hb, h⟩
  | leave hc => cases hq; cases hc with | mvar hc => exact ⟨0, hc, rfl⟩
  | _ => cases hq

variable [Inhabited α]

theorem complete_simple {p : Stmt α} (hs : NoLoops p) (hq : ∀ a b, p ≠ .seq a b) {top : Bool} (hp : Masked top G V M p) (hu : Uses nv nm p)
    (ht : top = false → OperandsTotal p) (hd : ∀ j, G j → ¬ M j) (σ τ : Nat → Vars α) (hσ : ∀ i, i < w → Fits nv nm (σ i))
    (hf : ∀ i, i < w → Fate top G V M i p (σ i) (τ i)) :
    ∃ σ' N, (∀ i, i < w → Same V M (σ' i) (τ i)) ∧ ∀ n, N ≤ n → p.run w n (pack w nv nm σ) = .ok (pack w nv nm σ') := by
  have : ∀ i, i < w → ∃ l, Same V M l (τ i) ∧ Run False i p (σ i) l := fun i hi => by
    rcases hf i hi with ⟨l₁, h1, h2⟩ | ⟨h1, h2, h3⟩
    · obtain ⟨l', g1, g2⟩ := simple_same (J := False) hs hq hp h1.symm h2
      exact ⟨l', g2.symm, g1⟩
    · subst h1
      obtain ⟨l', hl'⟩ := idle_runs (i := i) hs hq hp hu (ht rfl) (hσ i hi) h2
      exact ⟨l', (idle_same hp rfl hd _ _ h2 hl').trans h3, hl'⟩
  obtain ⟨σ', hσ'⟩ := choose_below this
  exact ⟨σ', 0, fun i hi => (hσ' i hi).1, fun n _ => (run_simple hs hu n σ _ hσ).2 ⟨σ', rfl, fun i hi => (hσ' i hi).2⟩⟩

theorem complete_loop {j : Nat} {body : Stmt α} (hj : ¬ M j) (hjn : j < nm) {τ : Nat → Vars α}
    (hb : ∀ σ τ : Nat → Vars α, (∀ i, i < w → Fits nv nm (σ i)) → (∀ i, i < w → Fate false (· = j) V M i body (σ i) (τ i)) →
      ∃ σ' N, (∀ i, i < w → Same V M (σ' i) (τ i)) ∧ ∀ n, N ≤ n → body.run w n (pack w nv nm σ) = .ok (pack w nv nm σ')) (C : Nat) :
    ∀ σ : Nat → Vars α, (∀ i, i < w → Fits nv nm (σ i)) →
      (∀ i, i < w → ∃ c, c ≤ C ∧ ∃ l, Same V M (σ i) l ∧ Left i j body c l (τ i)) →
      ∃ σ' N, (∀ i, i < w → Same V M (σ' i) (τ i)) ∧ ∀ n f, N ≤ n → N ≤ f →
        iter (fun s => do let b ← (Mk.mvar j : Mk α).simd w s; Simd.anyOf b) (body.run w n) f (pack w nv nm σ) = .ok (pack w nv nm σ') := by
  have hdone : ∀ σ : Nat → Vars α, (∀ i, i < w → Fits nv nm (σ i)) → (∀ i, i < w → ∃ l, Same V M (σ i) l ∧ Left i j body 0 l (τ i)) →
      ∃ σ' N, (∀ i, i < w → Same V M (σ' i) (τ i)) ∧ ∀ n f, N ≤ n → N ≤ f →
        iter (fun s => do let b ← (Mk.mvar j : Mk α).simd w s; Simd.anyOf b) (body.run w n) f (pack w nv nm σ) = .ok (pack w nv nm σ') := by
    intro σ hσ h
    refine ⟨σ, 1, fun i hi => ?_, fun n f _ hf => ?_⟩
    · obtain ⟨l, h1, _, rfl⟩ := h i hi
      exact h1
    · obtain ⟨f, rfl⟩ : ∃ g, f = g + 1 := ⟨f - 1, by omega⟩
      unfold iter
      rw [(cond_iff hσ (m := .mvar j) hjn (c := false)).2 ⟨fun _ => false, fun i hi => ?_, by simp⟩, Outcome.bind_ok, if_neg (by simp)]
      obtain ⟨l, h1, h2, _⟩ := h i hi
      exact .mvar ((h1.mask j hj).trans h2)
  induction C with
  | zero =>
    intro σ hσ h
    exact hdone σ hσ fun i hi => by
      obtain ⟨c, hc, h⟩ := h i hi
      obtain rfl : c = 0 := by omega
      exact h
  | succ C ih =>
    intro σ hσ h
    by_cases hall : ∀ i, i < w → ∃ l, Same V M (σ i) l ∧ Left i j body 0 l (τ i)
    · exact hdone σ hσ hall
    · obtain ⟨q, hq⟩ := choose_below (P := fun i (q : Bool × Vars α) => Cond i (σ i) (.mvar j) q.1 ∧
          Fate false (· = j) V M i body (σ i) q.2 ∧ (q.1 = false → ∃ l, Same V M (σ i) l ∧ Left i j body 0 l (τ i)) ∧
          ∃ c, c ≤ C ∧ Left i j body c q.2 (τ i)) fun i hi => by
        obtain ⟨c, hc, l, hl, h⟩ := h i hi
        cases c with
        | zero =>
          obtain ⟨h1, rfl⟩ := h
          have hcond : (σ i).2[j]? = some false := (hl.mask j hj).trans h1
          refine ⟨(false, τ i), .mvar hcond, .inr ⟨rfl, fun x hx b hxb => ?_, hl⟩, fun _ => ⟨_, hl, h1, rfl⟩, 0, Nat.zero_le _, h1, rfl⟩
          subst hx
          exact Option.some.inj (hxb.symm.trans hcond)
        | succ c =>
          obtain ⟨h1, l', h2, h3⟩ := h
          exact ⟨(true, l'), .mvar ((hl.mask j hj).trans h1), .inl ⟨l, hl, h2⟩, fun h => (by simp at h), c, by omega, h3⟩
      obtain ⟨i, hi, hni⟩ : ∃ i, i < w ∧ (q i).1 = true := by
        by_contra hn
        refine hall fun i hi => (hq i hi).2.2.1 ?_
        cases hqi : (q i).1 with
        | false => rfl
        | true => exact absurd ⟨i, hi, hqi⟩ hn
      obtain ⟨σ₁, N1, h1, hN1⟩ := hb σ (fun i => (q i).2) hσ fun i hi => (hq i hi).2.1
      have hfit : ∀ i, i < w → Fits nv nm (σ₁ i) := fun i hi => by
        refine (h1 i hi).symm.fits ?_
        rcases (hq i hi).2.1 with ⟨l₁, g1, g2⟩ | ⟨_, _, g⟩
        · exact run_fits g2 (g1.fits (hσ i hi))
        · exact g.fits (hσ i hi)
      obtain ⟨σ₂, N2, h2, hN2⟩ := ih σ₁ hfit fun i hi => by
        obtain ⟨c, hc, h⟩ := (hq i hi).2.2.2
        exact ⟨c, hc, _, h1 i hi, h⟩
      refine ⟨σ₂, N1 + N2 + 1, h2, fun n f hn hf => ?_⟩
      obtain ⟨f, rfl⟩ : ∃ g, f = g + 1 := ⟨f - 1, by omega⟩
      unfold iter
      rw [(cond_iff hσ (m := .mvar j) hjn (c := true)).2 ⟨fun i => (q i).1, fun i hi => (hq i hi).1, by
        symm; rw [decide_eq_true_eq]; exact ⟨i, hi, hni⟩⟩, Outcome.bind_ok, if_pos rfl, hN1 n (by omega), Outcome.bind_ok]
      exact hN2 n f (by omega) (by omega)

/-- If all lanes end, the masked simd program ends. -/
theorem complete {p : Stmt α} {top : Bool} (hp : Masked top G V M p) : Uses nv nm p → (top = false → OperandsTotal p) → LoopsTotal p →
    (∀ j, G j → ¬ M j) → ∀ σ τ : Nat → Vars α, (∀ i, i < w → Fits nv nm (σ i)) → (∀ i, i < w → Fate top G V M i p (σ i) (τ i)) →
    ∃ σ' N, (∀ i, i < w → Same V M (σ' i) (τ i)) ∧ ∀ n, N ≤ n → p.run w n (pack w nv nm σ) = .ok (pack w nv nm σ') := by
  induction hp with
  | @seq top G V M a b _ _ iha ihb =>
    intro hu ht hlt hd σ τ hσ hf
    obtain ⟨μ, hμ⟩ := choose_below (P := fun i (m : Vars α) => Fate top G V M i a (σ i) m ∧
        ∀ m', Same V M m' m → Fate top G V M i b m' (τ i)) fun i hi => by
      rcases hf i hi with ⟨l₁, h1, h2⟩ | ⟨h1, h2, h3⟩
      · cases h2 with
        | @seq _ _ _ m _ g1 g2 => exact ⟨m, .inl ⟨l₁, h1, g1⟩, fun m' hm => .inl ⟨m, hm, g2⟩⟩
      · exact ⟨σ i, .inr ⟨h1, h2, same_refl _⟩, fun m' hm => .inr ⟨h1, h2.same hm hd, hm.trans h3⟩⟩
    obtain ⟨σ₁, N1, h1, hN1⟩ := iha hu.1 (fun h => (ht h).1) hlt.1 hd σ μ hσ fun i hi => (hμ i hi).1
    have hfit : ∀ i, i < w → Fits nv nm (σ₁ i) := fun i hi => by
      refine (h1 i hi).symm.fits ?_
      rcases (hμ i hi).1 with ⟨l₁, g1, g2⟩ | ⟨_, _, g⟩
      · exact run_fits g2 (g1.fits (hσ i hi))
      · exact g.fits (hσ i hi)
    obtain ⟨σ₂, N2, h2, hN2⟩ := ihb hu.2 (fun h => (ht h).2) hlt.2 hd σ₁ τ hfit fun i hi => (hμ i hi).2 _ (h1 i hi)
    refine ⟨σ₂, N1 + N2, h2, fun n hn => ?_⟩
    unfold Stmt.run
    rw [hN1 n (by omega), Outcome.bind_ok, hN2 n (by omega)]
  | @localVar top G V M k e rest hk he hr ih =>
    intro hu ht hlt hd σ τ hσ hf
    obtain ⟨q, hq⟩ := choose_below (P := fun i (q : α × Vars α) => Value i (σ i).1 e q.1 ∧ Same V M q.2 (τ i) ∧
        Fate top G (Minus V k) M i rest ((σ i).1.set k q.1, (σ i).2) q.2) fun i hi => by
      rcases hf i hi with ⟨l₁, h1, h2⟩ | ⟨h1, h2, h3⟩
      · cases h2 with
        | seq g1 g2 =>
          cases g1 with
          | @assign _ _ v _ g1 => exact ⟨(v, τ i), value_same h1.symm he g1, same_refl _, .inl ⟨_, h1.setV_minus k v, g2⟩⟩
      · obtain ⟨v, hv⟩ := value_total (i := i) (hσ i hi) hu.1.2 (ht h1).1
        exact ⟨(v, ((σ i).1.set k v, (σ i).2)), hv, (same_setV (σ i) hk v).trans h3, .inr ⟨h1, h2, same_refl _⟩⟩
    obtain ⟨σ₂, N2, h2, hN2⟩ := ih hu.2 (fun h => (ht h).2) hlt.2 hd (fun i => ((σ i).1.set k (q i).1, (σ i).2)) (fun i => (q i).2)
      (fun i hi => ⟨by simpa using (hσ i hi).vars, (hσ i hi).masks⟩) fun i hi => (hq i hi).2.2
    refine ⟨σ₂, N2, fun i hi => ((h2 i hi).mono (fun _ h => h.1) fun _ h => h).trans (hq i hi).2.1, fun n hn => ?_⟩
    unfold Stmt.run
    rw [(run_simple (I := False) (p := .assign k e) trivial hu.1 n σ _ hσ).2 ⟨_, rfl, fun i hi => .assign (hq i hi).1⟩, Outcome.bind_ok]
    exact hN2 n hn
  | @localMask top G G' V M j m rest hj hm hG hr ih =>
    intro hu ht hlt hd σ τ hσ hf
    obtain ⟨q, hq⟩ := choose_below (P := fun i (q : Bool × Vars α) => Cond i (σ i) m q.1 ∧ Same V M q.2 (τ i) ∧
        Fate top G' V (Minus M j) i rest ((σ i).1, (σ i).2.set j q.1) q.2) fun i hi => by
      rcases hf i hi with ⟨l₁, h1, h2⟩ | ⟨h1, h2, h3⟩
      · cases h2 with
        | seq g1 g2 =>
          cases g1 with
          | @setMask _ _ b _ g1 => exact ⟨(b, τ i), cond_same h1.symm hm g1, same_refl _, .inl ⟨_, h1.setM_minus j b, g2⟩⟩
      · obtain ⟨b, hb⟩ := cond_total (i := i) (hσ i hi) hu.1.2 (ht h1).1
        exact ⟨(b, ((σ i).1, (σ i).2.set j b)), hb, (same_setM (σ i) hj b).trans h3, .inr ⟨h1, off_local h2 hb hG, same_refl _⟩⟩
    obtain ⟨σ₂, N2, h2, hN2⟩ := ih hu.2 (fun h => (ht h).2) hlt.2 (disj_local hd hG) (fun i => ((σ i).1, (σ i).2.set j (q i).1)) (fun i => (q i).2)
      (fun i hi => ⟨(hσ i hi).vars, by simpa using (hσ i hi).masks⟩) fun i hi => (hq i hi).2.2
    refine ⟨σ₂, N2, fun i hi => ((h2 i hi).mono (fun _ h => h) fun _ h => h.1).trans (hq i hi).2.1, fun n hn => ?_⟩
    unfold Stmt.run
    rw [(run_simple (I := False) (p := .setMask j m) trivial hu.1 n σ _ hσ).2 ⟨_, rfl, fun i hi => .setMask (hq i hi).1⟩, Outcome.bind_ok]
    exact hN2 n hn
  | @loop top G V M j body hj hg hb ih =>
    intro hu ht hlt hd σ τ hσ hf
    obtain ⟨C, hC⟩ := bound_below (P := fun i c => ∃ l, Same V M (σ i) l ∧ Left i j body c l (τ i)) w fun i hi => by
      rcases hf i hi with ⟨l₁, h1, h2⟩ | ⟨h1, h2, h3⟩
      · obtain ⟨c, hc⟩ := left_of h2
        exact ⟨c, l₁, h1, hc⟩
      · refine ⟨0, τ i, h3, ?_, rfl⟩
        have hlt : j < (σ i).2.length := by rw [(hσ i hi).masks]; exact hu.1
        rw [← h3.mask j hj, List.getElem?_eq_getElem hlt, h2 j (hg h1) _ (List.getElem?_eq_getElem hlt)]
    obtain ⟨σ', N, h1, h2⟩ := complete_loop hj hu.1 (ih hu.2 (fun _ => hlt) (loopsTotal_of hlt) fun x hx => hx ▸ hj) C σ hσ hC
    exact ⟨σ', N, h1, fun n hn => by unfold Stmt.run; exact h2 n n hn hn⟩
  | skip => intro hu ht _ hd σ τ hσ hf; exact complete_simple (by trivial) (fun _ _ h => by cases h) .skip hu ht hd σ τ hσ hf
  | assign h1 h2 => intro hu ht _ hd σ τ hσ hf; exact complete_simple (by trivial) (fun _ _ h => by cases h) (.assign h1 h2) hu ht hd σ τ hσ hf
  | compound h1 h2 => intro hu ht _ hd σ τ hσ hf; exact complete_simple (by trivial) (fun _ _ h => by cases h) (.compound h1 h2) hu ht hd σ τ hσ hf
  | whereAssign h1 h2 h3 h4 =>
    intro hu ht _ hd σ τ hσ hf; exact complete_simple (by trivial) (fun _ _ h => by cases h) (.whereAssign h1 h2 h3 h4) hu ht hd σ τ hσ hf
  | whereCompound h1 h2 h3 h4 =>
    intro hu ht _ hd σ τ hσ hf; exact complete_simple (by trivial) (fun _ _ h => by cases h) (.whereCompound h1 h2 h3 h4) hu ht hd σ τ hσ hf
  | setMask h1 h2 h3 => intro hu ht _ hd σ τ hσ hf; exact complete_simple (by trivial) (fun _ _ h => by cases h) (.setMask h1 h2 h3) hu ht hd σ τ hσ hf
  | whereMask h1 h2 h3 h4 =>
    intro hu ht _ hd σ τ hσ hf; exact complete_simple (by trivial) (fun _ _ h => by cases h) (.whereMask h1 h2 h3 h4) hu ht hd σ τ hσ hf

end Vir.LaneProg
