import Verif.Lemmas.Tree
import Verif.Lemmas.TransformMain

namespace Vir
open Spec ForEach

/-- A counted loop with an invariant. -/
theorem whileLoop_inv {S : Type} (cond : Int → Bool) (step : Nat) (body : Int → S → Outcome S)
    (Inv : Nat → S → Prop) (fuel p q : Nat) (st : S) (h0 : Inv 0 st)
    (hbody : ∀ i st, i < q → Inv i st → ∃ st', body ((p + i * step : Nat) : Int) st = .ok st' ∧ Inv (i + 1) st')
    (hcond : ∀ i, i < q → cond ((p + i * step : Nat) : Int) = true)
    (hend : cond ((p + q * step : Nat) : Int) = false) (hf : q < fuel) :
    ∃ st', whileLoop cond step body fuel (p : Int) st = .ok (((p + q * step : Nat) : Int), st') ∧ Inv q st' := by
  induction q generalizing p fuel st Inv with
  | zero =>
    cases fuel with
    | zero => omega
    | succ fuel =>
      simp only [Nat.zero_mul, Nat.add_zero] at hend ⊢
      exact ⟨st, by simp [whileLoop, hend], h0⟩
  | succ q ih =>
    cases fuel with
    | zero => omega
    | succ fuel =>
      have hc := hcond 0 (by omega)
      obtain ⟨st1, hb, hi⟩ := hbody 0 st (by omega) h0
      simp only [Nat.zero_mul, Nat.add_zero] at hc hb
      simp only [whileLoop, hc, if_true, hb, Outcome.bind_ok]
      have key : ∀ i, p + step + i * step = p + (i + 1) * step := by
        intro i; rw [Nat.succ_mul]; omega
      have := ih (fun i => Inv (i + 1)) fuel (p + step) st1 hi
        (fun i s hlt hI => by rw [key]; exact hbody (i + 1) s (by omega) hI)
        (fun i hlt => by rw [key]; exact hcond (i + 1) (by omega)) (by rw [key]; exact hend) (by omega)
      rw [Int.natCast_add, key] at this
      exact this

namespace Spec

/-- The precondition of `transform_reduce` on its ranges. -/
structure InputsOk {α β τ : Type} (R : REnv α β τ) (mem : List α) : Prop where
  ins_ne : R.ins ≠ []
  ins_le : ∀ a ∈ R.ins, a + R.n ≤ mem.length

end Spec

namespace TransformReduce
open Transform (loadIn loadIns)

variable {α β τ : Type} {R : REnv α β τ} {mem : List α}

theorem rangesOk (ok : InputsOk R mem) : RangesOk (REnv.t R) mem where
  ins_ne := ok.ins_ne
  ins_le := ok.ins_le
  out_le := by
    cases h : R.ins with
    | nil => exact absurd h ok.ins_ne
    | cons a _ =>
      have := ok.ins_le a (by simp [h])
      simp only [REnv.t]; omega
  «alias» := fun a _ => Or.inl (Nat.zero_le a)

/-- The result of `transform_op` on one chunk. -/
def chunkV (R : REnv α β τ) (mem : List α) (p w : Nat) : List β :=
  R.trans.call (R.ins.map fun a => slice mem (a + p) w)

/-- The transformed elements, converted to the aggregation type. -/
def vals (R : REnv α β τ) (mem : List α) (p : Nat) (ws : List Nat) : List τ :=
  (outs R.trans R.ins mem p ws).map R.cvt

theorem vals_cons (p w : Nat) (ws : List Nat) :
    vals R mem p (w :: ws) = (chunkV R mem p w).map R.cvt ++ vals R mem (p + w) ws := by
  simp [vals, outs, chunkV]

@[simp] theorem vals_nil (p : Nat) : vals R mem p [] = [] := rfl

theorem vals_append (p : Nat) (a b : List Nat) :
    vals R mem p (a ++ b) = vals R mem p a ++ vals R mem (p + a.sum) b := by
  simp [vals, outs_append]

theorem chunkV_length (ok : InputsOk R mem) (p w : Nat) (h : p + w ≤ R.n) : (chunkV R mem p w).length = w :=
  op_length R.trans ok.ins_ne ok.ins_le p w h

theorem loadFlag1_eq (ok : InputsOk R mem) (aligned : Bool) (p w : Nat)
    (hal : aligned = true → alignedAt R.e (p : Int) w = true) (h : p + w ≤ R.n) :
    loadFlag1AndInvoke R mem aligned w (p : Int) (p : Int) = .ok (chunkV R mem p w) := by
  have rk := rangesOk ok
  have hne := ok.ins_ne
  unfold loadFlag1AndInvoke chunkV
  cases hi : R.ins with
  | nil => exact absurd hi hne
  | cons b bs =>
    have h1 := Transform.loadIn_eq rk [] p w (by simp) h b (by simp [REnv.t, hi])
    have h2 := Transform.loadIns_eq rk [] p w (by simp) h bs (fun a ha => by simp [REnv.t, hi, ha])
    rw [writeAt_nil] at h1 h2
    have h3 : (aligned && !alignedAt R.e (p : Int) w) = false := by
      cases aligned with
      | false => rfl
      | true => simp [hal rfl]
    simp only [loadFlag1, h3, Bool.false_eq_true, if_false, h1, Outcome.bind_ok, h2, List.map_cons]

theorem _root_.Vir.Spec.Grouped.nil : Grouped R.rB R.cvt [] [] := ⟨[], [], rfl, List.Forall₂.nil, rfl⟩

theorem _root_.Vir.Spec.Grouped.cons {xs ws : List β} {ys : List τ} {b : β} (h1 : GSum R.rB ws b) (h2 : Grouped R.rB R.cvt xs ys) :
    Grouped R.rB R.cvt (ws ++ xs) (R.cvt b :: ys) := by
  obtain ⟨gs, bs, e1, e2, e3⟩ := h2
  exact ⟨ws :: gs, b :: bs, by simp [e1], List.Forall₂.cons h1 e2, by simp [e3]⟩

theorem _root_.Vir.Spec.Grouped.subst (hom : ∀ a b, R.cvt (R.rB a b) = R.rT (R.cvt a) (R.cvt b)) {xs : List β}
    {ys pre post : List τ} {v : τ} (h : Grouped R.rB R.cvt xs ys) (hv : GSum R.rT (pre ++ (ys ++ post)) v) :
    GSum R.rT (pre ++ (xs.map R.cvt ++ post)) v := by
  obtain ⟨gs, bs, e1, e2, e3⟩ := h
  have single : ∀ l : List τ, List.Forall₂ (GSum R.rT) (l.map fun x => [x]) l := by
    intro l
    rw [List.forall₂_map_left_iff, List.forall₂_same]
    intro x _; exact GSum.single x
  have hmid : List.Forall₂ (GSum R.rT) (gs.map (List.map R.cvt)) ys := by
    rw [e3, List.forall₂_map_left_iff, List.forall₂_map_right_iff]
    exact e2.imp fun _ _ h => h.map R.cvt hom
  have hf : ∀ l : List τ, (l.map fun x => [x]).flatten = l := by
    intro l; induction l with
    | nil => rfl
    | cons a l ih => simp [ih]
  have := hv.subst (List.rel_append (single pre) (List.rel_append hmid (single post)))
  simpa [hf, ← e1, List.map_flatten] using this

theorem lane0_single (r : τ) : lane0 [r] = .ok r := rfl

theorem vop_single (a b : τ) : vop R [a] [b] = [R.rT a b] := rfl

theorem prologue_gsum (ok : InputsOk R mem) (hB : HReduce R.rB R.hredB) (K tp k m : Nat) (ht : tp < 2 ^ K)
    (hk : k + m = K + 1) (hm : 0 < m) (hal : AlignedSeq R.e (tp % 2 ^ k) (ascBits tp k m)) (hN : tp ≤ R.n)
    (xs : List τ) (acc1 : τ) (hx : GSum R.rT xs acc1) :
    ∃ v ys, prologueRec R mem (2 ^ K) tp k acc1 = .ok v ∧
      Grouped R.rB R.cvt (outs R.trans R.ins mem (tp % 2 ^ k) (ascBits tp k m)) ys ∧ GSum R.rT (xs ++ ys) v := by
  induction m generalizing k xs acc1 with
  | zero => omega
  | succ m ih =>
    unfold prologueRec
    rw [if_neg (by simp [hasSingleBit_two_pow])]
    have hmod := mod_two_pow_succ' tp k
    have hsum := ascBits_sum tp k (m + 1)
    have htK : tp % 2 ^ (k + (m + 1)) = tp := by
      rw [hk]; exact Nat.mod_eq_of_lt (Nat.lt_trans ht (Nat.pow_lt_pow_right (by omega) (by omega)))
    rw [htK] at hsum
    simp only [ascBits, List.sum_append] at hsum
    simp only [ascBits] at hal ⊢
    have cont : ∀ xs' acc', GSum R.rT xs' acc' →
        ∃ v ys, (if _h : 2 ^ k < 2 ^ K then prologueRec R mem (2 ^ K) tp (k + 1) acc' else Outcome.ok acc') = .ok v ∧
          Grouped R.rB R.cvt (outs R.trans R.ins mem (tp % 2 ^ (k + 1)) (ascBits tp (k + 1) m)) ys ∧
            GSum R.rT (xs' ++ ys) v := by
      intro xs' acc' hx'
      by_cases hmz : m = 0
      · subst hmz
        have hkK : k = K := by omega
        rw [dif_neg (by rw [hkK]; omega)]
        exact ⟨acc', [], rfl, Grouped.nil, by simpa using hx'⟩
      · have h2 : 2 ^ k < 2 ^ K := Nat.pow_lt_pow_right (by omega) (by omega)
        rw [dif_pos h2]
        refine ih (k + 1) (by omega) (by omega) ?_ xs' acc' hx'
        rw [alignedSeq_append] at hal
        have := hal.2
        rw [hmod]
        cases hb : tp.testBit k
        · simpa [hb] using this
        · simpa [hb] using this
    by_cases hb : tp.testBit k = true
    · simp only [hb, if_true] at hal hmod hsum ⊢
      rw [if_pos ((and_two_pow_ne_zero k tp).2 hb)]
      simp only [List.cons_append, List.nil_append, AlignedSeq] at hal
      simp only [List.cons_append, List.nil_append, List.sum_cons, List.sum_nil] at hsum ⊢
      simp only [Nat.and_two_pow_sub_one_eq_mod]
      rw [loadFlag1_eq ok true (tp % 2 ^ k) (2 ^ k) (fun _ => hal.1) (by omega)]
      simp only [Outcome.bind_ok]
      have hl := chunkV_length ok (tp % 2 ^ k) (2 ^ k) (by omega)
      have hne : chunkV R mem (tp % 2 ^ k) (2 ^ k) ≠ [] := by
        intro h; rw [h] at hl; have := Nat.two_pow_pos k; simp at hl; omega
      obtain ⟨v, ys, hv1, hv2, hv3⟩ := cont _ _ (GSum.node hx (GSum.single (R.cvt (R.hredB _))))
      refine ⟨v, R.cvt (R.hredB (chunkV R mem (tp % 2 ^ k) (2 ^ k))) :: ys, hv1, ?_, ?_⟩
      · rw [outs, ← hmod]
        exact Grouped.cons (hB _ hne) hv2
      · simpa using hv3
    · have hb' : tp.testBit k = false := by simpa using hb
      simp only [hb', Bool.false_eq_true, if_false, List.nil_append, Nat.add_zero] at hmod ⊢
      rw [if_neg (fun h => hb ((and_two_pow_ne_zero k tp).1 h))]
      simp only [Outcome.bind_ok]
      obtain ⟨v, ys, hv1, hv2, hv3⟩ := cont _ _ hx
      rw [hmod] at hv2
      exact ⟨v, ys, hv1, hv2, hv3⟩

theorem vsum_vop {xs ys a b : List τ} (h1 : VSum R.rT xs a) (h2 : VSum R.rT ys b) (hl : a.length = b.length) :
    VSum R.rT (xs ++ ys) (vop R a b) := h1.zip h2 hl

theorem mod_pow_zero_iff (l k : Nat) : l &&& (2 ^ k - 1) = 0 ↔ l % 2 ^ k = 0 := by
  rw [Nat.and_two_pow_sub_one_eq_mod]

theorem descBits_nil_of_mod {l k : Nat} (h : l % 2 ^ k = 0) : descBits l k = [] := by
  induction k with
  | zero => rfl
  | succ k ih =>
    have h1 := mod_two_pow_succ' l k
    have hp := Nat.two_pow_pos k
    have hb : l.testBit k = false := by
      cases hb : l.testBit k
      · rfl
      · rw [hb, h] at h1; simp at h1; omega
    simp only [descBits, hb, Bool.false_eq_true, if_false, List.nil_append]
    apply ih
    rw [hb, h] at h1
    simpa using h1.symm

theorem fold_length {r : τ → τ → τ} {m k : Nat} {acc : List τ} (hpow : m = k + k) (h : acc.length = m) :
    (List.zipWith r (acc.take k) (acc.drop k)).length = k := by
  simp only [List.length_zipWith, List.length_take, List.length_drop]; omega

theorem epilogueAcc_gsum (ok : InputsOk R mem) (hT : HReduce R.rT R.hredT) (aligned : Bool) (l k p : Nat)
    (hl : l % 2 ^ (k + 1) ≠ 0) (hp : p + l % 2 ^ (k + 1) ≤ R.n)
    (hal : aligned = true → AlignedSeq R.e p (descBits l (k + 1)))
    (xs ys acc : List τ) (acc1 : τ) (hx : GSum R.rT xs acc1) (hy : VSum R.rT ys acc) (hacc : acc.length = 2 ^ k) :
    ∃ v, epilogueAcc R mem aligned l k acc1 acc (p : Int) (p : Int) = .ok v ∧
      GSum R.rT (xs ++ ys ++ vals R mem p (descBits l (k + 1))) v := by
  induction k generalizing p ys acc with
  | zero =>
    have hb : l.testBit 0 = true := by
      rw [Nat.testBit_zero]; simp at hl; simp; omega
    unfold epilogueAcc
    rw [if_pos ((and_two_pow_ne_zero 0 l).2 hb)]
    simp only [descBits, hb, if_true, List.append_nil, Nat.pow_zero] at hal hacc ⊢
    have hp1 : p + 1 ≤ R.n := by simp at hl hp; omega
    rw [loadFlag1_eq ok aligned p 1 (fun h => (hal h).1) hp1]
    simp only [Outcome.bind_ok]
    have hlen := chunkV_length ok p 1 hp1
    obtain ⟨c, hc⟩ := List.length_eq_one_iff.1 hlen
    obtain ⟨a, rfl⟩ := List.length_eq_one_iff.1 hacc
    rw [hc]
    simp only [List.map_cons, List.map_nil, vop_single, lane0_single]
    refine ⟨_, rfl, ?_⟩
    rw [vals_cons, hc, List.append_assoc]
    refine GSum.node hx ?_
    have := hy.reduce (GSum.single a)
    refine GSum.node this ?_
    simpa using GSum.single (r := R.rT) (R.cvt c)
  | succ k ih =>
    have hpow : 2 ^ (k + 1) = 2 ^ k + 2 ^ k := by rw [Nat.pow_succ]; omega
    have hhalf : 2 ^ (k + 1) / 2 = 2 ^ k := by rw [Nat.pow_succ]; omega
    have hpk := Nat.two_pow_pos k
    unfold epilogueAcc
    simp only [mod_pow_zero_iff, hhalf]
    have hmod := mod_two_pow_succ' l (k + 1)
    have hdesc : descBits l (k + 1 + 1) = (if l.testBit (k + 1) then [2 ^ (k + 1)] else []) ++ descBits l (k + 1) := rfl
    by_cases hb : l.testBit (k + 1) = true
    · rw [if_pos ((and_two_pow_ne_zero _ _).2 hb)]
      rw [hdesc] at hal ⊢
      simp only [hb, if_true, List.cons_append, List.nil_append] at hal hmod ⊢
      rw [loadFlag1_eq ok aligned p (2 ^ (k + 1)) (fun h => (hal h).1) (by omega)]
      simp only [Outcome.bind_ok]
      have hlen := chunkV_length ok p (2 ^ (k + 1)) (by omega)
      have hv := vsum_vop hy (VSum.refl R.rT ((chunkV R mem p (2 ^ (k + 1))).map R.cvt)) (by simp [hlen, hacc])
      have hvl : (vop R acc ((chunkV R mem p (2 ^ (k + 1))).map R.cvt)).length = 2 ^ (k + 1) := by
        simp [vop, hlen, hacc]
      rw [vals_cons]
      by_cases hz : l % 2 ^ (k + 1) = 0
      · rw [if_pos hz]
        refine ⟨_, rfl, ?_⟩
        rw [descBits_nil_of_mod hz, vals_nil, List.append_nil, List.append_assoc]
        refine GSum.node hx (hv.reduce (hT _ ?_))
        intro h; rw [h] at hvl; simp at hvl; omega
      · rw [if_neg hz]
        have hf := hv.fold (k := 2 ^ k) (by rw [hvl, hpow])
        obtain ⟨v, hv1, hv2⟩ := ih (p + 2 ^ (k + 1)) hz (by omega) (fun h => (hal h).2) _ _ hf
          (fold_length hpow hvl)
        refine ⟨v, ?_, ?_⟩
        · rw [← hv1, Int.natCast_add]; rfl
        · simpa using hv2
    · have hb' : l.testBit (k + 1) = false := by simpa using hb
      rw [if_neg (fun h => hb ((and_two_pow_ne_zero _ _).1 h))]
      simp only [hb', Bool.false_eq_true, if_false, Nat.add_zero] at hmod
      rw [hdesc] at hal ⊢
      simp only [hb', Bool.false_eq_true, if_false, List.nil_append] at hal ⊢
      rw [if_neg (by rw [← hmod]; exact hl)]
      have hf := hy.fold (k := 2 ^ k) (by rw [hacc, hpow])
      exact ih p (by rw [← hmod]; exact hl) (by rw [← hmod]; exact hp) hal _ _ hf (fold_length hpow hacc)

theorem epilogue_gsum (ok : InputsOk R mem) (hT : HReduce R.rT R.hredT) (aligned : Bool) (l k p : Nat)
    (hl : l % 2 ^ (k + 1) ≠ 0) (hp : p + l % 2 ^ (k + 1) ≤ R.n)
    (hal : aligned = true → AlignedSeq R.e p (descBits l (k + 1)))
    (xs : List τ) (acc1 : τ) (hx : GSum R.rT xs acc1) :
    ∃ v, epilogue R mem aligned l k acc1 (p : Int) (p : Int) = .ok v ∧
      GSum R.rT (xs ++ vals R mem p (descBits l (k + 1))) v := by
  induction k generalizing p with
  | zero =>
    have hb : l.testBit 0 = true := by
      rw [Nat.testBit_zero]; simp at hl; simp; omega
    unfold epilogue
    rw [if_pos ((and_two_pow_ne_zero 0 l).2 hb)]
    simp only [descBits, hb, if_true, List.append_nil, Nat.pow_zero] at hal ⊢
    have hp1 : p + 1 ≤ R.n := by simp at hl hp; omega
    rw [loadFlag1_eq ok aligned p 1 (fun h => (hal h).1) hp1]
    simp only [Outcome.bind_ok]
    have hlen := chunkV_length ok p 1 hp1
    obtain ⟨c, hc⟩ := List.length_eq_one_iff.1 hlen
    rw [hc]
    simp only [List.map_cons, List.map_nil, vop_single, lane0_single]
    refine ⟨_, rfl, ?_⟩
    rw [vals_cons, hc]
    refine GSum.node hx ?_
    simpa using GSum.single (r := R.rT) (R.cvt c)
  | succ k ih =>
    have hpow : 2 ^ (k + 1) = 2 ^ k + 2 ^ k := by rw [Nat.pow_succ]; omega
    have hhalf : 2 ^ (k + 1) / 2 = 2 ^ k := by rw [Nat.pow_succ]; omega
    have hpk := Nat.two_pow_pos k
    unfold epilogue
    simp only [mod_pow_zero_iff, hhalf]
    have hmod := mod_two_pow_succ' l (k + 1)
    have hdesc : descBits l (k + 1 + 1) = (if l.testBit (k + 1) then [2 ^ (k + 1)] else []) ++ descBits l (k + 1) := rfl
    by_cases hb : l.testBit (k + 1) = true
    · rw [if_pos ((and_two_pow_ne_zero _ _).2 hb)]
      rw [hdesc] at hal ⊢
      simp only [hb, if_true, List.cons_append, List.nil_append] at hal hmod ⊢
      rw [loadFlag1_eq ok aligned p (2 ^ (k + 1)) (fun h => (hal h).1) (by omega)]
      simp only [Outcome.bind_ok]
      have hlen := chunkV_length ok p (2 ^ (k + 1)) (by omega)
      have hv := VSum.refl R.rT ((chunkV R mem p (2 ^ (k + 1))).map R.cvt)
      have hvl : ((chunkV R mem p (2 ^ (k + 1))).map R.cvt).length = 2 ^ (k + 1) := by simp [hlen]
      rw [vals_cons]
      by_cases hz : l % 2 ^ (k + 1) = 0
      · rw [if_pos hz]
        refine ⟨_, rfl, ?_⟩
        rw [descBits_nil_of_mod hz, vals_nil, List.append_nil]
        refine GSum.node hx (hT _ ?_)
        intro h; rw [h] at hvl; simp at hvl; omega
      · rw [if_neg hz]
        have hf := hv.fold (k := 2 ^ k) (by rw [hvl, hpow])
        obtain ⟨v, hv1, hv2⟩ := epilogueAcc_gsum ok hT aligned l k (p + 2 ^ (k + 1)) hz (by omega)
          (fun h => (hal h).2) xs _ _ acc1 hx hf (fold_length hpow hvl)
        refine ⟨v, ?_, ?_⟩
        · rw [← hv1, Int.natCast_add]; rfl
        · simpa using hv2
    · have hb' : l.testBit (k + 1) = false := by simpa using hb
      rw [if_neg (fun h => hb ((and_two_pow_ne_zero _ _).1 h))]
      simp only [hb', Bool.false_eq_true, if_false, Nat.add_zero] at hmod
      rw [hdesc] at hal ⊢
      simp only [hb', Bool.false_eq_true, if_false, List.nil_append] at hal ⊢
      rw [if_neg (by rw [← hmod]; exact hl)]
      exact ih p (by rw [← hmod]; exact hl) (by rw [← hmod]; exact hp) hal

/-- The state of the accumulators of the unrolled loop. -/
def AccsInv (R : REnv α β τ) (xs : List τ) (U : Nat) (accs : List (List τ)) : Prop :=
  accs.length = U ∧ (∀ a ∈ accs, a.length = R.e.size) ∧
    ∃ xss, List.Forall₂ (VSum R.rT) xss accs ∧ xss.flatten.Perm xs

theorem unrolledInit_inv (ok : InputsOk R mem) (aligned : Bool) (U p : Nat)
    (hal : aligned = true → AlignedSeq R.e p (List.replicate U R.e.size)) (h : p + R.e.size * U ≤ R.n) :
    ∃ accs, unrolledInit R mem aligned R.e.size U (p : Int) (p : Int) = .ok accs ∧
      AccsInv R (vals R mem p (List.replicate U R.e.size)) U accs := by
  induction U generalizing p with
  | zero => exact ⟨[], rfl, rfl, by simp, [], by simp, by simp⟩
  | succ U ih =>
    rw [Nat.mul_succ] at h
    obtain ⟨accs, h1, h2, h3, xss, h4, h5⟩ := ih (p + R.e.size) (fun h => (hal h).2) (by omega)
    rw [Int.natCast_add] at h1
    simp only [unrolledInit, loadFlag1_eq ok aligned p R.e.size (fun h => (hal h).1) (by omega), Outcome.bind_ok, h1]
    refine ⟨_, rfl, by simp [h2], ?_, _ :: xss, List.Forall₂.cons (VSum.refl _ _) h4, ?_⟩
    · intro a ha
      rcases List.mem_cons.1 ha with rfl | ha
      · simp [chunkV_length ok p R.e.size (by omega)]
      · exact h3 a ha
    · simp only [List.flatten_cons, List.replicate_succ, vals_cons]
      exact h5.append_left _

theorem unrolledBody_inv (ok : InputsOk R mem) (aligned : Bool) (p : Nat) (accs : List (List τ))
    (hal : aligned = true → AlignedSeq R.e p (List.replicate accs.length R.e.size))
    (h : p + R.e.size * accs.length ≤ R.n) (xs : List τ) (hi : AccsInv R xs accs.length accs) :
    ∃ accs', unrolledBody R mem aligned R.e.size accs (p : Int) (p : Int) = .ok accs' ∧
      AccsInv R (xs ++ vals R mem p (List.replicate accs.length R.e.size)) accs.length accs' := by
  induction accs generalizing p xs with
  | nil => exact ⟨[], rfl, by simpa using hi⟩
  | cons a accs ih =>
    simp only [List.length_cons, Nat.mul_succ] at h
    obtain ⟨_, h2, xss, h4, h5⟩ := hi
    cases h4 with
    | @cons ys _ yss _ hy hys =>
      obtain ⟨accs', h1', h2', h3', xss', h4', h5'⟩ := ih (p + R.e.size) (fun h => (hal h).2) (by omega) yss.flatten
        ⟨rfl, fun b hb => h2 b (by simp [hb]), yss, hys, List.Perm.refl _⟩
      rw [Int.natCast_add] at h1'
      simp only [unrolledBody, loadFlag1_eq ok aligned p R.e.size (fun h => (hal h).1) (by omega), Outcome.bind_ok,
        h1']
      have hl := chunkV_length ok p R.e.size (by omega)
      have ha := h2 a (by simp)
      refine ⟨_, rfl, by simp [h2'], ?_, _ :: xss',
        List.Forall₂.cons (vsum_vop hy (VSum.refl R.rT ((chunkV R mem p R.e.size).map R.cvt)) (by simp [hl, ha])) h4', ?_⟩
      · intro b hb
        rcases List.mem_cons.1 hb with rfl | hb
        · simp [vop, hl, ha]
        · exact h3' b hb
      · simp only [List.flatten_cons, List.replicate_succ, List.length_cons, vals_cons]
        refine (h5'.append_left _).trans ?_
        simp only [List.flatten_cons] at h5
        refine List.Perm.trans ?_ (h5.append_right _)
        simp only [List.append_assoc]
        refine List.Perm.append_left _ ?_
        rw [← List.append_assoc, ← List.append_assoc]
        exact List.Perm.append_right _ List.perm_append_comm

end TransformReduce
end Vir
