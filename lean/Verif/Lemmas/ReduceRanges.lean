import Verif.Model.ReduceRanges
import Verif.Lemmas.ReduceEffectsPure
import Verif.Lemmas.Overloads

/-! Lemmas about the range overloads of `transform_reduce`. -/

namespace Vir
open Spec ForEach

namespace Eff

variable {σ A B : Type}

/-- Where `m` is defined, `m'` does the same. -/
def Le (m m' : Eff σ A) : Prop := ∀ s r, m s = .ok r → m' s = .ok r

theorem Le.refl (m : Eff σ A) : Le m m := fun _ _ h => h

theorem Le.bind {m m' : Eff σ A} {f f' : A → Eff σ B} (h : Le m m') (hf : ∀ a, Le (f a) (f' a)) : Le (m >>= f) (m' >>= f') := by
  intro s r hr
  rw [bind_def] at hr ⊢
  cases hm : m s with
  | ub u => rw [hm] at hr; cases hr
  | trap => rw [hm] at hr; cases hr
  | ok x =>
    rw [h s x hm]
    rw [hm] at hr
    obtain ⟨s', o⟩ := x
    cases o with
    | none => exact hr
    | some a => exact hf a s' r hr

theorem Le.ite {c : Prop} [Decidable c] {m m' n n' : Eff σ A} (h1 : Le m m') (h2 : Le n n') :
    Le (if c then m else n) (if c then m' else n') := by
  split
  · exact h1
  · exact h2

end Eff

namespace TransformReduce
open Transform Eff

variable {σ α β τ : Type} {t : TEnv} {ops : ROps σ α β τ} {ld ld' : Loader σ β}

/-- `ld'` does what `ld` does where that is defined. -/
def LoaderLe (ld ld' : Loader σ β) : Prop := ∀ aligned w p1 p2, Le (ld aligned w p1 p2) (ld' aligned w p1 p2)

/-- The operations `ops` with another `transform_op`, which the algorithm itself calls through the loader only. -/
@[reducible] def withTrans (ops : ROps σ α β τ) (tr : σ → List (List α) → σ × Option (List β))
    (sh : ∀ s w args r, args ≠ [] → (∀ a ∈ args, a.length = w) → (tr s args).2 = some r → r.length = w) : ROps σ α β τ :=
  { ops with trans := tr, transShape := sh }

variable {tr : σ → List (List α) → σ × Option (List β)}
  {sh : ∀ s w args r, args ≠ [] → (∀ a ∈ args, a.length = w) → (tr s args).2 = some r → r.length = w}

theorem le_prologueRecE (h : LoaderLe ld ld') (max tp k : Nat) (acc1 : τ) :
    Le (prologueRecE t ops ld max tp k acc1) (prologueRecE t (withTrans ops tr sh) ld' max tp k acc1) := by
  induction hm : max - 2 ^ k using Nat.strongRecOn generalizing k acc1 with
  | _ m ih =>
    unfold prologueRecE
    have hk : ∀ a, Le (if _h : 2 ^ k < max then prologueRecE t ops ld max tp (k + 1) a else pure a)
        (if _h : 2 ^ k < max then prologueRecE t (withTrans ops tr sh) ld' max tp (k + 1) a else pure a) := by
      intro a
      by_cases hlt : 2 ^ k < max
      · rw [dif_pos hlt, dif_pos hlt]
        have : 0 < 2 ^ k := Nat.two_pow_pos k
        exact ih _ (by rw [← hm, Nat.pow_succ]; omega) (k + 1) a rfl
      · rw [dif_neg hlt, dif_neg hlt]
        exact Le.refl _
    refine Le.ite (Le.refl _) (Le.ite ?_ ?_)
    · exact Le.bind (h _ _ _ _) fun _ => Le.bind (Le.refl _) fun _ => Le.bind (Le.refl _) hk
    · exact Le.bind (Le.refl _) hk

theorem le_epilogueAccE (h : LoaderLe ld ld') (aligned : Bool) (l k : Nat) (acc1 : τ) (acc : List τ) (p1 p2 : Int) :
    Le (epilogueAccE t ops ld aligned l k acc1 acc p1 p2) (epilogueAccE t (withTrans ops tr sh) ld' aligned l k acc1 acc p1 p2) := by
  induction k generalizing acc p1 p2 with
  | zero =>
    unfold epilogueAccE
    exact Le.ite (Le.bind (h _ _ _ _) fun _ => Le.refl _) (Le.refl _)
  | succ k ih =>
    unfold epilogueAccE
    exact Le.ite (Le.bind (h _ _ _ _) fun _ => Le.bind (Le.refl _) fun _ => Le.ite (Le.refl _) (Le.bind (Le.refl _) fun _ => ih _ _ _))
      (Le.ite (Le.refl _) (Le.bind (Le.refl _) fun _ => ih _ _ _))

theorem le_epilogueE (h : LoaderLe ld ld') (aligned : Bool) (l k : Nat) (acc1 : τ) (p1 p2 : Int) :
    Le (epilogueE t ops ld aligned l k acc1 p1 p2) (epilogueE t (withTrans ops tr sh) ld' aligned l k acc1 p1 p2) := by
  induction k generalizing p1 p2 with
  | zero =>
    unfold epilogueE
    exact Le.ite (Le.bind (h _ _ _ _) fun _ => Le.refl _) (Le.refl _)
  | succ k ih =>
    unfold epilogueE
    exact Le.ite (Le.bind (h _ _ _ _) fun _ => Le.ite (Le.refl _) (Le.bind (Le.refl _) fun _ => le_epilogueAccE h _ _ _ _ _ _ _))
      (Le.ite (Le.refl _) (ih _ _))

theorem le_unrolledInitE (h : LoaderLe ld ld') (aligned : Bool) (w k : Nat) (p1 p2 : Int) :
    Le (unrolledInitE t ops ld aligned w k p1 p2) (unrolledInitE t (withTrans ops tr sh) ld' aligned w k p1 p2) := by
  induction k generalizing p1 p2 with
  | zero => exact Le.refl _
  | succ k ih =>
    unfold unrolledInitE
    exact Le.bind (h _ _ _ _) fun _ => Le.bind (ih _ _) fun _ => Le.refl _

theorem le_unrolledBodyE (h : LoaderLe ld ld') (aligned : Bool) (w : Nat) (accs : List (List τ)) (p1 p2 : Int) :
    Le (unrolledBodyE t ops ld aligned w accs p1 p2) (unrolledBodyE t (withTrans ops tr sh) ld' aligned w accs p1 p2) := by
  induction accs generalizing p1 p2 with
  | nil => exact Le.refl _
  | cons a accs ih =>
    unfold unrolledBodyE
    exact Le.bind (h _ _ _ _) fun _ => Le.bind (Le.refl _) fun _ => Le.bind (ih _ _) fun _ => Le.refl _

theorem le_whileE {S : Type} (cond : Int → Bool) (step : Nat) {body body' : Int → S → Eff σ S} (h : ∀ i s, Le (body i s) (body' i s))
    (fuel : Nat) (pos : Int) (st : S) : Le (whileE cond step body fuel pos st) (whileE cond step body' fuel pos st) := by
  induction fuel generalizing pos st with
  | zero => exact Le.refl _
  | succ fuel ih =>
    unfold whileE
    exact Le.ite (Le.bind (h _ _) fun _ => ih _ _) (Le.refl _)

theorem le_firstLoadE (h : LoaderLe ld ld') (p1 p2 : Int) : Le (firstLoadE t ops ld p1 p2) (firstLoadE t (withTrans ops tr sh) ld' p1 p2) := by
  unfold firstLoadE
  exact Le.bind (h _ _ _ _) fun _ => Le.refl _

theorem le_initAccE (h : LoaderLe ld ld') (p1 p2 : Int) : Le (initAccE t ops ld p1 p2) (initAccE t (withTrans ops tr sh) ld' p1 p2) := by
  have hb : ∀ (i : Int) (st : Int × List (List τ)) (step : Nat),
      Le (do
        let acc ← unrolledBodyE t ops ld (useAligned t.e) t.e.size st.2 i st.1
        (pure (st.1 + (step : Int), acc) : Eff σ _))
      (do
        let acc ← unrolledBodyE t (withTrans ops tr sh) ld' (useAligned t.e) t.e.size st.2 i st.1
        (pure (st.1 + (step : Int), acc) : Eff σ _)) := fun i st step => Le.bind (le_unrolledBodyE h _ _ _ _ _) fun _ => Le.refl _
  unfold initAccE
  refine Le.ite (Le.bind (Le.refl _) fun _ => Le.bind (Le.refl _) fun _ => Le.ite ?_ (le_firstLoadE h _ _)) (le_firstLoadE h _ _)
  refine Le.bind (le_unrolledInitE h _ _ _ _ _) fun _ => Le.bind (hb _ _ _) fun _ => Le.bind (le_whileE _ _ (fun i st => hb i st _) _ _ _) ?_
  rintro ⟨f, st⟩
  exact Le.refl _

theorem le_finishE (h : LoaderLe ld ld') (l : Nat) (acc1 : τ) (st : AccSt τ) :
    Le (finishE t ops ld l acc1 st) (finishE t (withTrans ops tr sh) ld' l acc1 st) := by
  unfold finishE
  refine Le.ite (Le.refl _) (Le.ite (Le.refl _) (Le.ite ?_ ?_))
  · exact Le.bind (Le.refl _) fun _ => le_epilogueAccE h _ _ _ _ _ _ _
  · exact Le.bind (Le.refl _) fun _ => Le.bind (Le.refl _) fun _ => le_epilogueAccE h _ _ _ _ _ _ _

theorem le_restE (h : LoaderLe ld ld') (first : Int) (distance : Nat) (acc1 : τ) :
    Le (restE t ops ld first distance acc1) (restE t (withTrans ops tr sh) ld' first distance acc1) := by
  unfold restE
  refine Le.bind (Le.refl _) fun _ => Le.ite (Le.bind (le_initAccE h _ _) ?_) (Le.ite (le_epilogueE h _ _ _ _ _ _) (Le.refl _))
  rintro ⟨f1, st⟩
  refine Le.bind (le_whileE _ _ (fun i st => Le.bind (h _ _ _ _) fun _ => Le.refl _) _ _ _) ?_
  rintro ⟨f1, st⟩
  exact le_finishE h _ _ _

theorem le_transformReduceL' (h : LoaderLe ld ld') (init : τ) : Le (transformReduceL t ops ld init) (transformReduceL t (withTrans ops tr sh) ld' init) := by
  intro s r hr
  unfold transformReduceL at hr ⊢
  by_cases h0 : t.n = 0
  · simpa [h0] using hr
  by_cases h1 : (t.e.pol.assumeMatchingSize && t.n % t.e.size != 0) = true
  · simp [h0, h1] at hr
  simp only [h0, if_false, h1] at hr ⊢
  by_cases h2 : t.e.constEval = true
  · simp only [h2, if_true] at hr ⊢
    refine Le.bind (le_whileE _ _ (fun i st => Le.bind (h _ _ _ _) fun _ => Le.refl _) _ _ _) ?_ s r hr
    rintro ⟨f, a⟩
    exact Le.refl _
  · simp only [h2] at hr ⊢
    rw [runPrologue_flat] at hr ⊢
    have hpro : ∀ m tp x r, proE t ops ld m tp x = .ok r → proE t (withTrans ops tr sh) ld' m tp x = .ok r := by
      rintro m tp ⟨s, o⟩ r hx
      cases o with
      | none => exact hx
      | some a => exact le_prologueRecE h _ _ _ _ s r hx
    have hrun : ∀ y, runPrologue t.e t.n (proE t ops ld) 0 (s, some init) = .ok y →
        runPrologue t.e t.n (proE t (withTrans ops tr sh) ld') 0 (s, some init) = .ok y := by
      intro y hy
      unfold runPrologue at hy ⊢
      have key : ∀ (a : Int) (b : Nat),
          ((proE t ops ld (maxMisalignment t.e) (toProcess t.e) (s, some init) >>= fun st => (.ok (a, b, st) : Outcome _)) = .ok y) →
          ((proE t (withTrans ops tr sh) ld' (maxMisalignment t.e) (toProcess t.e) (s, some init) >>= fun st => (.ok (a, b, st) : Outcome _)) = .ok y) := by
        intro a b hk
        obtain ⟨st, h1, h2⟩ := bind_eq_ok hk
        rw [hpro _ _ _ _ h1]; exact h2
      repeat' split
      all_goals rename_i hh
      all_goals simp_all
    rw [← runPrologue_flat] at hr ⊢
    obtain ⟨⟨f, d, s', o⟩, h3, h4⟩ := bind_eq_ok hr
    rw [hrun _ h3]
    simp only [Outcome.bind_ok] at h4 ⊢
    cases o with
    | none => exact h4
    | some a => exact le_restE h _ _ _ s' r h4

theorem le_transformReduceL (h : LoaderLe ld ld') (init : τ) : Le (transformReduceL t ops ld init) (transformReduceL t ops ld' init) :=
  le_transformReduceL' (tr := ops.trans) (sh := ops.transShape) h init

/-! ### The loads of the range overloads -/

variable {e : Env} {r1 : Rng} {rs : List Rng} {mem : List α}

theorem loadRng_le (n : Nat) (w : Nat) (r : Rng) (hr : n ≤ r.len) (p : Int) (v : List α) (b : List Nat)
    (h : loadIn ⟨e, b, 0, n⟩ mem w r.base p = .ok v) : loadRng mem w r p = .ok v := by
  unfold loadIn at h
  unfold loadRng
  split at h
  · rename_i hc
    rw [if_pos]
    · exact h
    · simp only [inRange, Bool.and_eq_true, decide_eq_true_eq] at hc ⊢
      omega
  · cases h

theorem loadRngs_le (n : Nat) (w : Nat) (p : Int) (b : List Nat) (qs : List Rng) (hq : ∀ r ∈ qs, n ≤ r.len) (vs : List (List α))
    (h : loadIns ⟨e, b, 0, n⟩ mem w p (qs.map Rng.base) = .ok vs) : loadRngs mem w p qs = .ok vs := by
  induction qs generalizing vs with
  | nil => exact h
  | cons r qs ih =>
    simp only [List.map_cons, loadIns] at h
    obtain ⟨c, h1, h2⟩ := bind_eq_ok h
    obtain ⟨cs, h3, h4⟩ := bind_eq_ok h2
    simp only [loadRngs, loadRng_le n w r (hq r (by simp)) p c b h1, ih (fun r hr => hq r (by simp [hr])) cs h3, Outcome.bind_ok]
    exact h4

/-- If all ranges are long enough, the loads of the iterator form do the same wherever they are defined. -/
theorem loaderLe_ranges (hrs : ∀ r ∈ rs, r1.len ≤ r.len) (ops : ROps σ α β τ) :
    LoaderLe (loadInvokeE ⟨e, r1.base :: rs.map Rng.base, 0, r1.len⟩ ops mem) (loadRngsInvoke e r1 rs ops mem) := by
  intro aligned w p1 p2
  unfold loadInvokeE loadRngsInvoke
  refine Le.bind ?_ fun _ => Le.bind ?_ fun _ => Le.refl _
  · by_cases ha : (aligned && !alignedAt e p1 w) = true
    · simp only [ha, if_true]; exact Le.refl _
    · simp only [ha]
      intro s r hr
      simp only [lift] at hr ⊢
      obtain ⟨v, h1, h2⟩ := bind_eq_ok hr
      rw [if_neg (by simp)] at h1 ⊢
      rw [loadRng_le r1.len w r1 (Nat.le_refl _) p1 v _ h1]
      exact h2
  · intro s r hr
    simp only [lift] at hr ⊢
    obtain ⟨v, h1, h2⟩ := bind_eq_ok hr
    rw [loadRngs_le r1.len w p2 _ rs hrs v h1]
    exact h2

theorem loadRng_fits (r : Rng) (hm : r.base + r.len ≤ mem.length) (w p : Nat) (h : p + w ≤ r.len) :
    ∃ v, loadRng mem w r (p : Int) = .ok v ∧ v.length = w := by
  unfold loadRng
  rw [if_pos]
  · refine ⟨_, rfl, ?_⟩
    rw [List.length_take, List.length_drop]; omega
  · simp only [inRange, Bool.and_eq_true, decide_eq_true_eq]; omega

theorem loadRngs_cases (w p : Nat) (qs : List Rng) (hm : ∀ r ∈ qs, r.base + r.len ≤ mem.length) :
    ((∀ r ∈ qs, p + w ≤ r.len) ∧ ∃ vs, loadRngs mem w (p : Int) qs = .ok vs ∧ ∀ v ∈ vs, v.length = w) ∨
      loadRngs mem w (p : Int) qs = .ub .oob := by
  induction qs with
  | nil => exact Or.inl ⟨by simp, [], rfl, by simp⟩
  | cons r qs ih =>
    by_cases h : p + w ≤ r.len
    · obtain ⟨v, h1, h2⟩ := loadRng_fits r (hm r (by simp)) w p h
      simp only [loadRngs, h1, Outcome.bind_ok]
      rcases ih (fun r hr => hm r (by simp [hr])) with ⟨h3, vs, h4, h5⟩ | h3
      · left
        rw [h4]
        refine ⟨?_, _, rfl, ?_⟩
        · intro r' hr'
          rcases List.mem_cons.1 hr' with rfl | hr'
          · exact h
          · exact h3 r' hr'
        · intro v' hv'
          rcases List.mem_cons.1 hv' with rfl | hv'
          · exact h2
          · exact h5 v' hv'
      · right; rw [h3]; rfl
    · right
      have : loadRng mem w r (p : Int) = .ub .oob := by
        unfold loadRng
        rw [if_neg]
        simp only [inRange, Bool.and_eq_true, decide_eq_true_eq]; omega
      simp only [loadRngs, this]; rfl

/-- With ranges of any length: each load stays inside all ranges, or is undefined. -/
theorem short_prims (hm : ∀ r ∈ r1 :: rs, r.base + r.len ≤ mem.length) (ops : ROps σ α β τ) (X : σ → Prop)
    (x1 : ∀ s args, (ops.trans s args).2 = none → X (ops.trans s args).1) (x2 : ∀ s x y, (ops.red s x y).2 = none → X (ops.red s x y).1)
    (x3 : ∀ s v, (ops.hredB s v).2 = none → X (ops.hredB s v).1) (x4 : ∀ s v, (ops.hredT s v).2 = none → X (ops.hredT s v).1) :
    Prims (fun p _ _ => ∀ r ∈ rs, p ≤ r.len) X (· = .oob) ⟨e, r1.base :: rs.map Rng.base, 0, r1.len⟩ ops
      (loadRngsInvoke e r1 rs ops mem) := by
  have inv : ∀ {A : Type} (p v q u : Nat) (Q : A → Prop) (f : σ → σ × Option A), (∀ s, (f s).2 = none → X (f s).1) →
      (∀ s a, (f s).2 = some a → Q a) → ((∀ r ∈ rs, p ≤ r.len) → ∀ r ∈ rs, q ≤ r.len) →
      Tri (fun p _ _ => ∀ r ∈ rs, p ≤ r.len) X (· = .oob) p v q u Q (invoke f) := by
    intro A p v q u Q f h1 h2 h3 s hs
    cases hf : (f s).2 with
    | none =>
      refine Or.inr (Or.inl ⟨(f s).1, ?_, h1 s hf⟩)
      simp only [invoke]; rw [← hf]
    | some a =>
      refine Or.inl ⟨(f s).1, a, ?_, h3 hs, h2 s a hf⟩
      simp only [invoke]; rw [← hf]
  refine ⟨?_, ?_, ?_, ?_⟩
  · intro aligned p w hal hle _ u
    unfold loadRngsInvoke
    have h3 : (aligned && !alignedAt e (p : Int) w) = false := by
      cases aligned with
      | false => rfl
      | true => simpa using hal rfl
    obtain ⟨v, h1, h2⟩ := loadRng_fits r1 (hm r1 (by simp)) w p hle
    simp only [h3, Bool.false_eq_true, if_false, h1, lift_ok, pure_bind']
    rcases loadRngs_cases w p rs (fun r hr => hm r (by simp [hr])) with ⟨h4, vs, h5, h6⟩ | h4
    · simp only [h5, lift_ok, pure_bind']
      refine inv _ _ _ _ _ _ (fun s => x1 s _) (fun s a ha => ?_) (fun _ => h4)
      refine ops.transShape s w (v :: vs) a (by simp) ?_ ha
      intro b hb
      rcases List.mem_cons.1 hb with rfl | hb
      · exact h2
      · exact h6 b hb
    · intro s _
      exact Or.inr (Or.inr ⟨.oob, by rw [h4]; rfl, rfl⟩)
  · intro p u x y hxy hx
    exact inv _ _ _ _ _ _ (fun s => x2 s x y) (fun s a ha => ops.redShape s x y a hxy ha) id
  · intro p u v _ _
    exact inv _ _ _ _ _ _ (fun s => x4 s v) (fun _ _ _ => trivial) id
  · intro p u v _ _
    exact inv _ _ _ _ _ _ (fun s => x3 s v) (fun _ _ _ => trivial) id

end TransformReduce
end Vir
