import Verif.Lemmas.ReduceEffects

/-! Without effects `transformReduceE` is `transformReduce`. -/

namespace Vir
open Spec ForEach

namespace Eff

variable {σ A B : Type}

theorem lift_bind (x : Outcome A) (f : A → Outcome B) : (lift (x >>= f) : Eff σ B) = lift x >>= fun a => lift (f a) := by
  funext s
  cases x <;> rfl

theorem lift_pure (a : A) : (lift (.ok a) : Eff σ A) = pure a := rfl

theorem lift_ite (c : Prop) [Decidable c] (x y : Outcome A) :
    (lift (if c then x else y) : Eff σ A) = if c then lift x else lift y := by split <;> rfl

theorem bind_assoc' {C : Type} (m : Eff σ A) (f : A → Eff σ B) (g : B → Eff σ C) : (m >>= f) >>= g = m >>= fun a => f a >>= g := by
  funext s
  simp only [bind_def]
  rcases m s with ⟨s', _ | a⟩ | r | _ <;> rfl

theorem bind_congr' {m : Eff σ A} {f g : A → Eff σ B} (h : ∀ a, f a = g a) : m >>= f = m >>= g := by
  rw [show f = g from funext h]

end Eff

namespace TransformReduce
open Transform Eff

variable {σ α β τ : Type} (R : REnv α β τ) (mem : List α)

/-- The operations of `R`, with (no) effects on a state. -/
abbrev opsOf (R : REnv α β τ) : ROps σ α β τ := pureOps R.trans R.rT R.cvt R.hredB R.hredT

theorem loadInvokeE_pure (aligned : Bool) (w : Nat) (p1 p2 : Int) :
    (loadInvokeE (REnv.t R) (opsOf R) mem aligned w p1 p2 : Eff σ _) = lift (loadFlag1AndInvoke R mem aligned w p1 p2) := by
  unfold loadInvokeE loadFlag1AndInvoke
  show (match R.ins with | [] => _ | b1 :: bs => _) = _
  cases R.ins with
  | nil => rfl
  | cons b bs =>
    simp only [lift_bind]
    rfl

theorem redE_pure (x y : List τ) : (redE (opsOf R) x y : Eff σ _) = pure (vop R x y) := rfl
theorem hredTE_pure (v : List τ) : (hredTE (opsOf R) v : Eff σ _) = pure (R.hredT v) := rfl
theorem hredBE_pure (v : List β) : (hredBE (opsOf R) v : Eff σ _) = pure (R.hredB v) := rfl
theorem red1E_pure (a : τ) (y : List τ) : (red1E (opsOf R) a y : Eff σ _) = lift (lane0 (vop R [a] y)) := rfl

theorem prologueRecE_pure (max tp k : Nat) (acc1 : τ) :
    (prologueRecE (REnv.t R) (opsOf R) (loadInvokeE (REnv.t R) (opsOf R) mem) max tp k acc1 : Eff σ _) = lift (prologueRec R mem max tp k acc1) := by
  induction hm : max - 2 ^ k using Nat.strongRecOn generalizing k acc1 with
  | _ m ih =>
    unfold prologueRecE prologueRec
    by_cases h0 : (!hasSingleBit max) = true
    · rw [if_pos h0, if_pos h0]
    · rw [if_neg h0, if_neg h0]
      have cont : ∀ a, (if _h : 2 ^ k < max then prologueRecE (REnv.t R) (opsOf R) (loadInvokeE (REnv.t R) (opsOf R) mem) max tp (k + 1) a else pure a : Eff σ τ) =
          lift (if _h : 2 ^ k < max then prologueRec R mem max tp (k + 1) a else .ok a) := by
        intro a
        by_cases h : 2 ^ k < max
        · rw [dif_pos h, dif_pos h]
          have : 0 < 2 ^ k := Nat.two_pow_pos k
          exact ih _ (by rw [← hm, Nat.pow_succ]; omega) (k + 1) a rfl
        · rw [dif_neg h, dif_neg h]; rfl
      by_cases h1 : (tp &&& 2 ^ k) ≠ 0
      · rw [if_pos h1, if_pos h1]
        simp only [lift_bind, loadInvokeE_pure, hredBE_pure, red1E_pure, pure_bind', cont]
        rfl
      · rw [if_neg h1, if_neg h1]
        simp only [pure_bind', cont]
        rfl

theorem epilogueAccE_pure (aligned : Bool) (l k : Nat) (acc1 : τ) (acc : List τ) (p1 p2 : Int) :
    (epilogueAccE (REnv.t R) (opsOf R) (loadInvokeE (REnv.t R) (opsOf R) mem) aligned l k acc1 acc p1 p2 : Eff σ _) =
      lift (epilogueAcc R mem aligned l k acc1 acc p1 p2) := by
  induction k generalizing acc p1 p2 with
  | zero =>
    simp only [epilogueAccE, epilogueAcc, loadInvokeE_pure, redE_pure, red1E_pure, pure_bind', lift_ite, lift_bind]
    rfl
  | succ k ih =>
    simp only [epilogueAccE, epilogueAcc, loadInvokeE_pure, redE_pure, red1E_pure, hredTE_pure, pure_bind', lift_ite, lift_bind, ih,
      fold2]
    rfl

theorem epilogueE_pure (aligned : Bool) (l k : Nat) (acc1 : τ) (p1 p2 : Int) :
    (epilogueE (REnv.t R) (opsOf R) (loadInvokeE (REnv.t R) (opsOf R) mem) aligned l k acc1 p1 p2 : Eff σ _) = lift (epilogue R mem aligned l k acc1 p1 p2) := by
  induction k generalizing p1 p2 with
  | zero =>
    simp only [epilogueE, epilogue, loadInvokeE_pure, red1E_pure, lift_ite, lift_bind]
    rfl
  | succ k ih =>
    simp only [epilogueE, epilogue, loadInvokeE_pure, redE_pure, red1E_pure, hredTE_pure, pure_bind', lift_ite, lift_bind, ih,
      fold2, epilogueAccE_pure]
    rfl

theorem unrolledInitE_pure (aligned : Bool) (w k : Nat) (p1 p2 : Int) :
    (unrolledInitE (REnv.t R) (opsOf R) (loadInvokeE (REnv.t R) (opsOf R) mem) aligned w k p1 p2 : Eff σ _) = lift (unrolledInit R mem aligned w k p1 p2) := by
  induction k generalizing p1 p2 with
  | zero => rfl
  | succ k ih =>
    simp only [unrolledInitE, unrolledInit, loadInvokeE_pure, lift_bind, ih]
    rfl

theorem unrolledBodyE_pure (aligned : Bool) (w : Nat) (accs : List (List τ)) (p1 p2 : Int) :
    (unrolledBodyE (REnv.t R) (opsOf R) (loadInvokeE (REnv.t R) (opsOf R) mem) aligned w accs p1 p2 : Eff σ _) = lift (unrolledBody R mem aligned w accs p1 p2) := by
  induction accs generalizing p1 p2 with
  | nil => rfl
  | cons a accs ih =>
    simp only [unrolledBodyE, unrolledBody, loadInvokeE_pure, redE_pure, pure_bind', lift_bind, ih]
    rfl

theorem foldlM_pure {A B : Type} (f : A → B → Eff σ A) (g : A → B → A) (h : ∀ a b, f a b = pure (g a b)) (l : List B) (a : A) :
    l.foldlM f a = (pure (l.foldl g a) : Eff σ A) := by
  induction l generalizing a with
  | nil => rfl
  | cons b l ih => rw [List.foldlM_cons, h, pure_bind', ih]; rfl

theorem treeReduceE_pure (U : Nat) (acc : List (List τ)) :
    (treeReduceE (opsOf R) U acc : Eff σ _) = pure (treeReduce (vop R) U acc) := by
  unfold treeReduceE treeReduce
  refine foldlM_pure _ _ ?_ _ _
  intro acc outer
  refine foldlM_pure _ _ ?_ _ _
  intro acc ii
  unfold treeInnerE treeInner
  simp only
  split
  · split <;> simp_all only [redE_pure, pure_bind']
  · rfl

theorem whileE_pure {S : Type} (cond : Int → Bool) (step : Nat) (body : Int → S → Eff σ S) (body' : Int → S → Outcome S)
    (h : ∀ i s, body i s = lift (body' i s)) (fuel : Nat) (pos : Int) (st : S) :
    whileE cond step body fuel pos st = lift (whileLoop cond step body' fuel pos st) := by
  induction fuel generalizing pos st with
  | zero => rfl
  | succ fuel ih =>
    simp only [whileE, whileLoop, lift_ite, lift_bind, h, ih]
    rfl

theorem firstLoadE_pure (p1 p2 : Int) :
    (firstLoadE (REnv.t R) (opsOf R) (loadInvokeE (REnv.t R) (opsOf R) mem) p1 p2 : Eff σ _) = lift (firstLoad R mem p1 p2) := by
  simp only [firstLoadE, firstLoad, loadInvokeE_pure, lift_bind]
  rfl

theorem initAccE_pure (p1 p2 : Int) :
    (initAccE (REnv.t R) (opsOf R) (loadInvokeE (REnv.t R) (opsOf R) mem) p1 p2 : Eff σ _) = lift (initAcc R mem p1 p2) := by
  simp only [initAccE, initAcc, firstLoadE_pure, unrolledInitE_pure, unrolledBodyE_pure, treeReduceE_pure, lift_ite, lift_bind]
  have hw : ∀ (last : Int) (pos : Int) (st : Int × List (List τ)),
      (whileE (fun first1 => decide (first1 ≤ last)) ((REnv.t R).e.size * (REnv.t R).e.pol.unrollBy.toNat)
        (fun first1 (st : Int × List (List τ)) => (do
          let acc ← lift (unrolledBody R mem (useAligned (REnv.t R).e) (REnv.t R).e.size st.2 first1 st.1)
          pure (st.1 + (((REnv.t R).e.size * (REnv.t R).e.pol.unrollBy.toNat : Nat) : Int), acc) : Eff σ _))
        ((REnv.t R).n + 1) pos st) =
      lift (whileLoop (fun first1 => decide (first1 ≤ last)) (R.e.size * R.e.pol.unrollBy.toNat)
        (fun first1 (st : Int × List (List τ)) => (do
          let acc ← unrolledBody R mem (useAligned R.e) R.e.size st.2 first1 st.1
          Outcome.ok (st.1 + ((R.e.size * R.e.pol.unrollBy.toNat : Nat) : Int), acc)))
        (R.n + 1) pos st) := by
    intro last pos st
    refine whileE_pure _ _ _ _ ?_ _ _ _
    intro i s
    rw [lift_bind]; rfl
  simp only [hw, pure_bind', bind_assoc']
  rfl

theorem finishE_pure (l : Nat) (acc1 : τ) (st : AccSt τ) :
    (finishE (REnv.t R) (opsOf R) (loadInvokeE (REnv.t R) (opsOf R) mem) l acc1 st : Eff σ _) = lift (finish R mem l acc1 st) := by
  simp only [finishE, finish, redE_pure, red1E_pure, hredTE_pure, pure_bind', lift_ite, lift_bind, epilogueAccE_pure]
  rfl

theorem transformReduceE_eq (init : τ) :
    (transformReduceE (REnv.t R) (opsOf R) mem init : Eff σ _) = lift (transformReduce R mem init) := by
  funext s
  unfold transformReduceE transformReduceL transformReduce
  simp only
  by_cases h0 : R.n = 0
  · have h0' : (REnv.t R).n = 0 := h0
    rw [if_pos h0', if_pos h0]; rfl
  have h0' : ¬ (REnv.t R).n = 0 := h0
  rw [if_neg h0', if_neg h0]
  by_cases h1 : (R.e.pol.assumeMatchingSize && R.n % R.e.size != 0) = true
  · have h1' : ((REnv.t R).e.pol.assumeMatchingSize && (REnv.t R).n % (REnv.t R).e.size != 0) = true := h1
    rw [if_pos h1', if_pos h1]; rfl
  have h1' : ¬ ((REnv.t R).e.pol.assumeMatchingSize && (REnv.t R).n % (REnv.t R).e.size != 0) = true := h1
  rw [if_neg h1', if_neg h1]
  by_cases h2 : R.e.constEval = true
  · have h2' : (REnv.t R).e.constEval = true := h2
    rw [if_pos h2', if_pos h2, lift_bind]
    rw [whileE_pure _ _ _ (fun first1 acc1 => do
        let r ← loadFlag1AndInvoke R mem false 1 first1 first1
        lane0 (vop R [acc1] (r.map R.cvt))) (by
      intro i s
      simp only [loadInvokeE_pure, red1E_pure, lift_bind]; rfl)]
    rfl
  have h2' : ¬ (REnv.t R).e.constEval = true := h2
  rw [if_neg h2', if_neg h2]
  -- the prologue
  have hpro : ∀ max tp x, proE (REnv.t R) (opsOf R : ROps σ α β τ) (loadInvokeE (REnv.t R) (opsOf R) mem) max tp (s, some x) =
      (prologueRec R mem max tp 0 x >>= fun a => .ok (s, some a)) := by
    intro max tp x
    simp only [proE, prologueRecE_pure]; rfl
  have hrun : runPrologue R.e R.n (proE (REnv.t R) (opsOf R : ROps σ α β τ) (loadInvokeE (REnv.t R) (opsOf R) mem)) 0 (s, some init) =
      (runPrologue R.e R.n (fun max tp acc1 => prologueRec R mem max tp 0 acc1) 0 init >>= fun r => .ok (r.1, r.2.1, s, some r.2.2)) := by
    unfold runPrologue
    have key : ∀ (a : Int) (b max tp : Nat), (proE (REnv.t R) (opsOf R : ROps σ α β τ) (loadInvokeE (REnv.t R) (opsOf R) mem) max tp (s, some init) >>= fun st =>
        (Outcome.ok (a, b, st) : Outcome (Int × Nat × (σ × Option τ)))) =
        ((prologueRec R mem max tp 0 init >>= fun st => Outcome.ok (a, b, st)) >>= fun r => .ok (r.1, r.2.1, s, some r.2.2)) := by
      intro a b max tp
      rw [hpro]
      cases prologueRec R mem max tp 0 init <;> rfl
    split
    · split
      · rfl
      · split
        · exact key _ _ _ _
        · split
          · exact key _ _ _ _
          · rfl
    · rfl
  have hrest : ∀ (first : Int) (d : Nat) (a : τ), (restE (REnv.t R) (opsOf R) (loadInvokeE (REnv.t R) (opsOf R) mem) first d a : Eff σ τ) = lift (do
      let simdLast ← subPtr R.e (R.n : Int) R.e.size
      if R.e.pol.assumeMatchingSize || decide (first ≤ simdLast) then do
        let (first1, st) ← initAcc R mem first first
        let (first1, st) ← whileLoop
          (fun first1 => if R.e.pol.assumeMatchingSize then decide (first1 ≠ (R.n : Int)) else decide (first1 ≤ simdLast))
          R.e.size
          (fun first1 (st : Int × List τ) => do
            let v ← loadFlag1AndInvoke R mem (useAligned R.e) R.e.size first1 st.1
            Outcome.ok (st.1 + (R.e.size : Int), vop R st.2 (v.map R.cvt)))
          (R.n + 1) first1 st
        finish R mem (d % R.e.size) a (first1, st)
      else if stdBitCeil R.e.size / 2 > 0 then
        epilogue R mem (useAligned R.e) (d % R.e.size) (Nat.log2 (stdBitCeil R.e.size / 2)) a first first
      else .ub .unreachable) := by
    intro first d a
    have hw : ∀ (cond : Int → Bool) (pos : Int) (st : Int × List τ),
        (whileE cond (REnv.t R).e.size
          (fun first1 (st : Int × List τ) => (do
            let v ← lift (loadFlag1AndInvoke R mem (useAligned (REnv.t R).e) (REnv.t R).e.size first1 st.1)
            pure (st.1 + ((REnv.t R).e.size : Int), vop R st.2 (v.map (opsOf R : ROps σ α β τ).cvt)) : Eff σ _))
          ((REnv.t R).n + 1) pos st) =
        lift (whileLoop cond R.e.size
          (fun first1 (st : Int × List τ) => (do
            let v ← loadFlag1AndInvoke R mem (useAligned R.e) R.e.size first1 st.1
            Outcome.ok (st.1 + (R.e.size : Int), vop R st.2 (v.map R.cvt)))) (R.n + 1) pos st) := by
      intro cond pos st
      refine whileE_pure _ _ _ _ ?_ _ _ _
      intro i s
      rw [lift_bind]; rfl
    simp only [restE, initAccE_pure, loadInvokeE_pure, redE_pure, pure_bind', finishE_pure, epilogueE_pure, lift_bind, lift_ite, hw]
    rfl
  have hrun' : runPrologue (REnv.t R).e (REnv.t R).n (proE (REnv.t R) (opsOf R : ROps σ α β τ) (loadInvokeE (REnv.t R) (opsOf R) mem)) 0 (s, some init) = _ := hrun
  rw [hrun']
  cases hc : runPrologue R.e R.n (fun max tp acc1 => prologueRec R mem max tp 0 acc1) 0 init with
  | ub r => rfl
  | trap => rfl
  | ok r =>
    obtain ⟨first, d, a⟩ := r
    simp only [Outcome.bind_ok, hrest]

end TransformReduce
end Vir
