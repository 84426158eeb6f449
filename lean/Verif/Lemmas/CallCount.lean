import Verif.Spec.CallCount
import Verif.Lemmas.ThrowingTransform
import Verif.Lemmas.ReduceEffects

/-! Lemmas about the number of invocations. -/

namespace Vir
open Spec ForEach Transform

variable {σ α β τ S : Type}

theorem ascBits_length (n k m : Nat) : (ascBits n k m).length ≤ m := by
  induction m generalizing k with
  | zero => simp [ascBits]
  | succ m ih =>
    simp only [ascBits, List.length_append]
    have := ih (k + 1)
    split <;> simp <;> omega

theorem descBits_length (n k : Nat) : (descBits n k).length ≤ k := by
  induction k with
  | zero => simp [descBits]
  | succ k ih =>
    simp only [descBits, List.length_append]
    split <;> simp <;> omega

theorem bitsAsc_length {n j : Nat} (h : n < 2 ^ j) : (bitsAsc n).length ≤ j := by
  rw [← bitsAsc_eq n j h]; exact ascBits_length _ _ _

theorem bitsDesc_length {n j : Nat} (h : n < 2 ^ j) : (bitsDesc n).length ≤ j := by
  rw [← bitsDesc_eq n j h]; exact descBits_length _ _

/-- Number of chunks. -/
def chunkCount (gs : List Group) : Nat := (gs.map Group.k).sum

theorem chunkCount_chunked (a : Bool) (ws : List Nat) : chunkCount (chunked a ws) = ws.length := by
  induction ws with
  | nil => rfl
  | cons w ws ih => simp only [chunkCount, chunked_cons, List.map_cons, List.sum_cons, List.length_cons] at ih ⊢; omega

theorem runGroups_cost (inv : Group → Nat → S → Outcome S) (C : S → Nat) (c : Group → Nat)
    (h : ∀ g p st st', inv g p st = .ok st' → C st' ≤ C st + c g) (gs : List Group) (p : Nat) (st st' : S)
    (hr : runGroups inv p gs st = .ok st') : C st' ≤ C st + (gs.map c).sum := by
  induction gs generalizing p st with
  | nil => simp only [runGroups, Outcome.ok.injEq] at hr; subst hr; simp
  | cons g gs ih =>
    simp only [runGroups] at hr
    cases hg : inv g p st with
    | ok st1 =>
      rw [hg, Outcome.bind_ok] at hr
      have h1 := h g p st st1 hg
      have h2 := ih _ _ hr
      simp only [List.map_cons, List.sum_cons]
      omega
    | ub r => rw [hg] at hr; cases hr
    | trap => rw [hg] at hr; cases hr

theorem proCount_lt {e : Env} (wf : e.WF) (n : Nat) : proCount e n = 0 ∨ proCount e n < e.size := by
  rcases proCount_cases e n with h | ⟨h1, h2, h3⟩
  · exact Or.inl h
  · obtain ⟨K, hK⟩ := proInfo wf h1
    have := hK.tp_lt h2
    have := hK.le_size
    right; omega

/-- The number of chunks and of groups. -/
theorem groupsOf_count {e : Env} (wf : e.WF) {n j : Nat} (hp : n = 0 ∨ proCount e n ≤ n) (hj : e.size ≤ 2 ^ j) :
    chunkCount (groupsOf e n) ≤ n / e.size + 2 * j ∧
    (groupsOf e n).length ≤ n / (e.size * max 1 e.pol.unrollBy.toNat) + (max 1 e.pol.unrollBy.toNat - 1) + 2 * j := by
  unfold groupsOf
  split
  · simp [chunkCount]
  rename_i hn
  have hp : proCount e n ≤ n := by omega
  have hs := wf.size_pos
  have h1 : (bitsAsc (proCount e n)).length ≤ j := by
    rcases proCount_lt wf n with h | h
    · rw [h]; simp
    · exact bitsAsc_length (by omega)
  have h2 : (bitsDesc ((n - proCount e n) % e.size)).length ≤ j :=
    bitsDesc_length (by have := Nat.mod_lt (n - proCount e n) hs; omega)
  generalize proCount e n = p at *
  have hc : ∀ a b : List Group, chunkCount (a ++ b) = chunkCount a + chunkCount b := by intro a b; simp [chunkCount]
  have hrep : ∀ q (g : Group), chunkCount (List.replicate q g) = q * g.k := by intro q g; simp [chunkCount]
  simp only [hc, hrep, chunkCount_chunked, List.length_append, List.length_replicate]
  have hlen : ∀ a (ws : List Nat), (chunked a ws).length = ws.length := by intro a ws; simp [chunked]
  simp only [hlen]
  have hmono : (n - p) / e.size ≤ n / e.size := Nat.div_le_div_right (by omega)
  by_cases hu : e.pol.unrollBy > 1
  · have hU : max 1 e.pol.unrollBy.toNat = unroll e := by unfold unroll; omega
    have hU1 : 1 < unroll e := by unfold unroll; omega
    rw [hU]
    have hit : unrolledIters e (n - p) = (n - p) / (e.size * unroll e) := by simp [unrolledIters, hu]
    rw [hit]
    have hmul : (n - p) / (e.size * unroll e) * (e.size * unroll e) ≤ n - p := Nat.div_mul_le_self _ _
    have hmod : n - p - (n - p) / (e.size * unroll e) * (e.size * unroll e) = (n - p) % (e.size * unroll e) := by
      have := Nat.div_add_mod (n - p) (e.size * unroll e)
      rw [Nat.mul_comm] at this
      omega
    rw [hmod]
    have hpos : 0 < e.size * unroll e := Nat.mul_pos hs (by omega)
    have hq2 : (n - p) % (e.size * unroll e) / e.size < unroll e := by
      rw [Nat.div_lt_iff_lt_mul hs, Nat.mul_comm (unroll e)]; exact Nat.mod_lt _ hpos
    have hmono2 : (n - p) / (e.size * unroll e) ≤ n / (e.size * unroll e) := Nat.div_le_div_right (by omega)
    have hsum : (n - p) / (e.size * unroll e) * unroll e + (n - p) % (e.size * unroll e) / e.size = (n - p) / e.size := by
      rw [Nat.mod_mul_right_div_self, ← Nat.div_div_eq_div_mul, Nat.mul_comm]
      exact Nat.div_add_mod _ _
    constructor
    · omega
    · omega
  · have hU : max 1 e.pol.unrollBy.toNat = 1 := by omega
    have hit : unrolledIters e (n - p) = 0 := by simp [unrolledIters, hu]
    simp only [hU, hit, Nat.mul_one, Nat.zero_mul, Nat.sub_zero]
    constructor <;> omega

/-- Without prologue and remainder. -/
theorem groupsOf_count_exact {e : Env} (wf : e.WF) {n : Nat} (hp : proCount e n = 0) (hd : e.size ∣ n) :
    chunkCount (groupsOf e n) = n / e.size := by
  unfold groupsOf
  split
  · rename_i h; subst h; simp [chunkCount]
  have hs := wf.size_pos
  have hc : ∀ a b : List Group, chunkCount (a ++ b) = chunkCount a + chunkCount b := by intro a b; simp [chunkCount]
  have hrep : ∀ q (g : Group), chunkCount (List.replicate q g) = q * g.k := by intro q g; simp [chunkCount]
  simp only [hc, hrep, chunkCount_chunked, hp, bitsAsc_zero, List.length_nil, Nat.sub_zero, Nat.mod_eq_zero_of_dvd hd, bitsDesc_zero]
  by_cases hu : e.pol.unrollBy > 1
  · have hit : unrolledIters e n = n / (e.size * unroll e) := by simp [unrolledIters, hu]
    rw [hit]
    have hmod : n - n / (e.size * unroll e) * (e.size * unroll e) = n % (e.size * unroll e) := by
      have := Nat.div_add_mod n (e.size * unroll e)
      rw [Nat.mul_comm] at this
      omega
    rw [hmod]
    have hsum : n / (e.size * unroll e) * unroll e + n % (e.size * unroll e) / e.size = n / e.size := by
      rw [Nat.mod_mul_right_div_self, ← Nat.div_div_eq_div_mul, Nat.mul_comm]
      exact Nat.div_add_mod _ _
    omega
  · have hit : unrolledIters e n = 0 := by simp [unrolledIters, hu]
    simp [hit]

theorem startsAligned_proCount {e : Env} (h : StartsAligned e) (n : Nat) : proCount e n = 0 := by
  unfold proCount
  rcases h with h | ⟨h1, h2⟩
  · rw [if_pos (show misalignedBytes e = 0 from Nat.mod_eq_zero_of_dvd h)]; split <;> rfl
  · rw [if_neg]; simp [useAligned, maybeAnyway, h1, h2]

theorem startsAligned_reaches {e : Env} (h : StartsAligned e) (n : Nat) : ReachesAlignment e n := by
  intro hp _ _ _
  rcases h with h | ⟨h1, _⟩
  · exact Or.inr ⟨0, by omega, by simpa using h⟩
  · rw [h1] at hp; cases hp

/-! ### `for_each` -/

theorem loadAll_length (e : Env) (mem : List α) (aligned : Bool) (w k : Nat) (pos : Int) (cs : List (List α))
    (h : loadAll e mem aligned w k pos = .ok cs) : cs.length = k := by
  induction k generalizing pos cs with
  | zero => simp only [loadAll, Outcome.ok.injEq] at h; subst h; rfl
  | succ k ih =>
    unfold loadAll at h
    cases h1 : load e mem aligned w pos with
    | ok c =>
      rw [h1, Outcome.bind_ok] at h
      cases h2 : loadAll e mem aligned w k (pos + w) with
      | ok cs' =>
        rw [h2, Outcome.bind_ok] at h
        simp only [Outcome.ok.injEq] at h
        subst h
        simp [ih _ _ h2]
      | ub r => rw [h2] at h; cases h
      | trap => rw [h2] at h; cases h
    | ub r => rw [h1] at h; cases h
    | trap => rw [h1] at h; cases h

theorem invokeT_log (e : Env) (wb : Bool) (f : TCallable σ α) (w k : Nat) (aligned : Bool) (pos : Int)
    (st st' : TState (σ × List (TEvent α)) α) (h : invokeT e wb (loggedT f) w aligned k pos st = .ok st') :
    recordOf st' = recordOf st ∨ ∃ ev, recordOf st' = recordOf st ++ [ev] ∧ ev.args.length = k := by
  unfold invokeT at h
  match st with
  | .inr x => simp only [Outcome.ok.injEq] at h; subst h; exact Or.inl rfl
  | .inl ((s, log), mem) =>
    simp only at h
    cases hl : loadAll e mem aligned w k pos with
    | ub r => rw [hl] at h; cases h
    | trap => rw [hl] at h; cases h
    | ok cs =>
      rw [hl, Outcome.bind_ok] at h
      have hk := loadAll_length _ _ _ _ _ _ _ hl
      right
      refine ⟨⟨cs, (f.call s cs).2⟩, ?_, hk⟩
      simp only [loggedT] at h
      generalize f.call s cs = c at h
      obtain ⟨s1, r⟩ := c
      cases r with
      | none => simp only [Outcome.ok.injEq] at h; subst h; rfl
      | some r =>
        simp only at h
        cases wb with
        | false => simp only [Bool.false_eq_true, if_false, Outcome.ok.injEq] at h; subst h; rfl
        | true =>
          simp only [if_true] at h
          cases hst : storeAll e aligned w r pos mem with
          | ok m => rw [hst, Outcome.bind_ok] at h; simp only [Outcome.ok.injEq] at h; subst h; rfl
          | ub r => rw [hst] at h; cases h
          | trap => rw [hst] at h; cases h

/-! ### `transform` -/

theorem evalGroup_log (t : TEnv) (op : TOp σ α) (mem : List α) (w : Nat) (p1 p2 : Int) (is : List Nat) (s : σ) (log : List (OpEvent α))
    (r : (σ × List (OpEvent α)) × Option (List (Nat × List α)))
    (h : evalGroup t (loggedOp op) mem w p1 p2 is (s, log) = .ok r) : r.1.2.length ≤ log.length + is.length := by
  induction is generalizing s log r with
  | nil => simp only [evalGroup, Outcome.ok.injEq] at h; subst h; simp
  | cons i is ih =>
    unfold evalGroup at h
    cases hl : loadArgs t mem w (p1 + ((i * w : Nat) : Int)) (p2 + ((i * w : Nat) : Int)) with
    | ub r => rw [hl] at h; cases h
    | trap => rw [hl] at h; cases h
    | ok args =>
      rw [hl, Outcome.bind_ok] at h
      simp only [loggedOp] at h
      generalize op.call s args = c at h
      obtain ⟨s1, v⟩ := c
      cases v with
      | none => simp only [Outcome.ok.injEq] at h; subst h; simp
      | some v =>
        simp only at h
        cases hr : evalGroup t (loggedOp op) mem w p1 p2 is (s1, log ++ [⟨args, some v⟩]) with
        | ok r' =>
          unfold loggedOp at hr
          rw [hr, Outcome.bind_ok] at h
          simp only [Outcome.ok.injEq] at h
          subst h
          have := ih s1 _ _ (by unfold loggedOp; exact hr)
          simp at this ⊢; omega
        | ub r => unfold loggedOp at hr; rw [hr] at h; cases h
        | trap => unfold loggedOp at hr; rw [hr] at h; cases h

theorem chunksT_log (t : TEnv) (ord : Nat → List Nat) (hord : ∀ k, (ord k).Perm (List.range k)) (op : TOp σ α) (w k : Nat) (aligned : Bool)
    (p1 d p2 : Int) (st st' : TState (σ × List (OpEvent α)) α) (h : chunksT t ord (loggedOp op) w aligned k p1 d p2 st = .ok st') :
    (recordOf st').length ≤ (recordOf st).length + k := by
  unfold chunksT at h
  match st with
  | .inr x => simp only [Outcome.ok.injEq] at h; subst h; simp [recordOf]
  | .inl ((s, log), mem) =>
    simp only at h
    cases hl : evalGroup t (loggedOp op) mem w p1 p2 (ord k) (s, log) with
    | ub r => rw [hl] at h; cases h
    | trap => rw [hl] at h; cases h
    | ok r =>
      rw [hl, Outcome.bind_ok] at h
      have hlen := evalGroup_log t op mem w p1 p2 (ord k) s log r hl
      rw [(hord k).length_eq, List.length_range] at hlen
      obtain ⟨s1, v⟩ := r
      cases v with
      | none => simp only [Outcome.ok.injEq] at h; subst h; exact hlen
      | some rs =>
        simp only at h
        cases hst : storeGroup t aligned w rs d (List.range k) mem with
        | ok m => rw [hst, Outcome.bind_ok] at h; simp only [Outcome.ok.injEq] at h; subst h; exact hlen
        | ub r => rw [hst] at h; cases h
        | trap => rw [hst] at h; cases h

/-! ### `count_if` -/

theorem predsThenInc_log (p : CountIf.TPred σ α) (xs : List (List α)) (s : σ) (log : List (PEvent α)) (c : CountIf.Counters) :
    (CountIf.predsThenInc (loggedP p) xs ((s, log), c)).1.1.2.length ≤ log.length + xs.length := by
  induction xs generalizing s log c with
  | nil => simp [CountIf.predsThenInc]
  | cons x xs ih =>
    unfold CountIf.predsThenInc
    simp only [loggedP]
    generalize p.call s x = r
    obtain ⟨s1, r⟩ := r
    cases r with
    | none => simp
    | some k =>
      have := ih s1 (log ++ [⟨x, some k⟩]) (c >>= CountIf.incMaskv k)
      simp only [loggedP] at this
      simp at this ⊢; omega

theorem lambdaT_log (p : CountIf.TPred σ α) (xs : List (List α)) (s : σ) (log : List (PEvent α)) (c : CountIf.Counters) :
    (CountIf.lambdaT (loggedP p) xs ((s, log), c)).1.1.2.length ≤ log.length + xs.length := by
  unfold CountIf.lambdaT
  split
  · rename_i x
    simp only [loggedP]
    generalize p.call s x = r
    obtain ⟨s1, r⟩ := r
    cases r <;> simp
  · exact predsThenInc_log p xs s log c

/-! ### `transform_reduce` -/

namespace TransformReduce
open Eff

/-- A piece of code increases the measure `C` by at most `c`, whether it throws or not. -/
def Cost {A : Type} (C : σ → Nat) (c : Nat) (m : Eff σ A) : Prop := ∀ s s' r, m s = .ok (s', r) → C s' ≤ C s + c

variable {A B : Type} {C : σ → Nat}

theorem Cost.pure (a : A) : Cost C 0 (pure a : Eff σ A) := by
  intro s s' r h
  simp only [Eff.pure_def, Outcome.ok.injEq, Prod.mk.injEq] at h
  rw [← h.1]; omega

theorem Cost.lift (x : Outcome A) : Cost C 0 (lift x : Eff σ A) := by
  intro s s' r h
  cases x with
  | ok a => exact Cost.pure a s s' r h
  | ub r => cases h
  | trap => cases h

theorem Cost.bind {c1 c2 : Nat} {m : Eff σ A} {f : A → Eff σ B} (h1 : Cost C c1 m) (h2 : ∀ a, Cost C c2 (f a)) :
    Cost C (c1 + c2) (m >>= f) := by
  intro s s' r h
  rw [Eff.bind_def] at h
  cases hm : m s with
  | ok x =>
    obtain ⟨s1, v⟩ := x
    have := h1 _ _ _ hm
    rw [hm] at h
    cases v with
    | none =>
      simp only [Outcome.ok.injEq, Prod.mk.injEq] at h
      rw [← h.1]; omega
    | some a =>
      have := h2 a _ _ _ h
      omega
  | ub r => rw [hm] at h; cases h
  | trap => rw [hm] at h; cases h

theorem Cost.mono {c c' : Nat} {m : Eff σ A} (h : Cost C c m) (hc : c ≤ c') : Cost C c' m := by
  intro s s' r hm
  have := h s s' r hm
  omega

theorem Cost.bind0 {c : Nat} {m : Eff σ A} {f : A → Eff σ B} (h1 : Cost C 0 m) (h2 : ∀ a, Cost C c (f a)) :
    Cost C c (m >>= f) := (h1.bind h2).mono (by omega)

theorem Cost.foldlM {f : A → Nat → Eff σ A} (h : ∀ a i, Cost C 0 (f a i)) (l : List Nat) (a : A) : Cost C 0 (l.foldlM f a) := by
  induction l generalizing a with
  | nil => exact Cost.pure a
  | cons i l ih => exact Cost.bind0 (h a i) fun b => ih b

theorem Cost.whileE {cond : Int → Bool} {step : Nat} {body : Int → A → Eff σ A} (h : ∀ p a, Cost C 0 (body p a)) (fuel : Nat) (p : Int) (a : A) :
    Cost C 0 (whileE cond step body fuel p a) := by
  induction fuel generalizing p a with
  | zero => exact Cost.lift _
  | succ fuel ih =>
    unfold TransformReduce.whileE
    split
    · exact Cost.bind0 (h _ _) fun _ => ih _ _
    · exact Cost.pure _

/-- Loads of the full width cost nothing, other loads one. -/
structure CostPrims (C : σ → Nat) (t : TEnv) (ops : ROps σ α β τ) (ld : Loader σ β) : Prop where
  full : ∀ aligned p1 p2, Cost C 0 (ld aligned t.e.size p1 p2)
  any : ∀ aligned w p1 p2, Cost C 1 (ld aligned w p1 p2)
  red : ∀ x y, Cost C 0 (redE ops x y)
  hredT : ∀ v, Cost C 0 (hredTE ops v)
  hredB : ∀ v, Cost C 0 (hredBE ops v)

variable {t : TEnv} {ops : ROps σ α β τ} {ld : Loader σ β}

theorem CostPrims.red1 (pr : CostPrims C t ops ld) (a : τ) (y : List τ) : Cost C 0 (red1E ops a y) :=
  Cost.bind0 (pr.red _ _) fun _ => Cost.lift _

theorem prologueRecE_cost (pr : CostPrims C t ops ld) (K tp k m : Nat) (htp : tp < 2 ^ K) (hk : k + m = K + 1) (hm : 0 < m) (a : τ) :
    Cost C (m - 1) (prologueRecE t ops ld (2 ^ K) tp k a) := by
  induction m generalizing k a with
  | zero => omega
  | succ m ih =>
    unfold prologueRecE
    rw [if_neg (by simp [hasSingleBit_two_pow])]
    have hnext : ∀ a, Cost C (m - 1) (if _h : 2 ^ k < 2 ^ K then prologueRecE t ops ld (2 ^ K) tp (k + 1) a else Pure.pure a) := by
      intro a
      split
      · rename_i h
        have : k < K := (Nat.pow_lt_pow_iff_right (by omega)).1 h
        exact ih (k + 1) (by omega) (by omega) a
      · exact (Cost.pure a).mono (by omega)
    by_cases hb : (tp &&& 2 ^ k) ≠ 0
    · have hkK : k < K := by
        have := (and_two_pow_ne_zero _ _).1 hb
        have := Nat.ge_two_pow_of_testBit this
        exact (Nat.pow_lt_pow_iff_right (a := 2) (by omega)).1 (by omega)
      rw [if_pos hb]
      refine Cost.mono (c := 1 + (m - 1)) (Cost.bind (pr.any _ _ _ _) fun v => ?_) (by omega)
      exact Cost.bind0 (pr.hredB _) fun _ => Cost.bind0 (pr.red1 _ _) fun a => hnext a
    · rw [if_neg hb]
      exact Cost.mono (Cost.bind0 (Cost.pure _) hnext) (by omega)

theorem epilogueAccE_cost (pr : CostPrims C t ops ld) (aligned : Bool) (l k : Nat) (a : τ) (acc : List τ) (p1 p2 : Int) :
    Cost C (k + 1) (epilogueAccE t ops ld aligned l k a acc p1 p2) := by
  induction k generalizing a acc p1 p2 with
  | zero =>
    unfold epilogueAccE
    split
    · exact Cost.bind (c2 := 0) (pr.any _ _ _ _) fun v => Cost.bind0 (pr.red _ _) fun _ => pr.red1 _ _
    · exact (Cost.lift _).mono (by omega)
  | succ k ih =>
    unfold epilogueAccE
    dsimp only
    split
    · refine Cost.mono (c := 1 + (k + 1)) (Cost.bind (pr.any _ _ _ _) fun v => Cost.bind0 (pr.red _ _) fun acc => ?_) (by omega)
      split
      · exact Cost.mono (Cost.bind0 (pr.hredT _) fun _ => pr.red1 _ _) (by omega)
      · exact Cost.bind0 (pr.red _ _) fun _ => ih _ _ _ _
    · split
      · exact (Cost.lift _).mono (by omega)
      · exact Cost.mono (Cost.bind0 (pr.red _ _) fun _ => ih _ _ _ _) (by omega)

theorem epilogueE_cost (pr : CostPrims C t ops ld) (aligned : Bool) (l k : Nat) (a : τ) (p1 p2 : Int) :
    Cost C (k + 1) (epilogueE t ops ld aligned l k a p1 p2) := by
  induction k generalizing a p1 p2 with
  | zero =>
    unfold epilogueE
    split
    · exact Cost.bind (c2 := 0) (pr.any _ _ _ _) fun v => pr.red1 _ _
    · exact (Cost.lift _).mono (by omega)
  | succ k ih =>
    unfold epilogueE
    dsimp only
    split
    · refine Cost.mono (c := 1 + (k + 1)) (Cost.bind (pr.any _ _ _ _) fun v => ?_) (by omega)
      split
      · exact Cost.mono (Cost.bind0 (pr.hredT _) fun _ => pr.red1 _ _) (by omega)
      · exact Cost.bind0 (pr.red _ _) fun _ => epilogueAccE_cost pr _ _ _ _ _ _ _
    · split
      · exact (Cost.lift _).mono (by omega)
      · exact Cost.mono (ih _ _ _) (by omega)

theorem unrolledInitE_cost (pr : CostPrims C t ops ld) (aligned : Bool) (k : Nat) (p1 p2 : Int) :
    Cost C 0 (unrolledInitE t ops ld aligned t.e.size k p1 p2) := by
  induction k generalizing p1 p2 with
  | zero => exact Cost.pure _
  | succ k ih =>
    unfold unrolledInitE
    exact Cost.bind0 (pr.full _ _ _) fun _ => Cost.bind0 (ih _ _) fun _ => Cost.pure _

theorem unrolledBodyE_cost (pr : CostPrims C t ops ld) (aligned : Bool) (as : List (List τ)) (p1 p2 : Int) :
    Cost C 0 (unrolledBodyE t ops ld aligned t.e.size as p1 p2) := by
  induction as generalizing p1 p2 with
  | nil => exact Cost.pure _
  | cons a as ih =>
    unfold unrolledBodyE
    exact Cost.bind0 (pr.full _ _ _) fun _ => Cost.bind0 (pr.red _ _) fun _ => Cost.bind0 (ih _ _) fun _ => Cost.pure _

theorem treeReduceE_cost (pr : CostPrims C t ops ld) (U : Nat) (acc : List (List τ)) : Cost C 0 (treeReduceE ops U acc) := by
  unfold treeReduceE
  refine Cost.foldlM (fun a o => Cost.foldlM (fun a i => ?_) _ _) _ _
  unfold treeInnerE
  dsimp only
  split
  · split
    · exact Cost.bind0 (pr.red _ _) fun _ => Cost.pure _
    · exact Cost.pure _
  · exact Cost.pure _

theorem firstLoadE_cost (pr : CostPrims C t ops ld) (p1 p2 : Int) : Cost C 0 (firstLoadE t ops ld p1 p2) :=
  Cost.bind0 (pr.full _ _ _) fun _ => Cost.pure _

theorem initAccE_cost (pr : CostPrims C t ops ld) (p1 p2 : Int) : Cost C 0 (initAccE t ops ld p1 p2) := by
  unfold initAccE
  split
  · refine Cost.bind0 (Cost.lift _) fun ul => Cost.bind0 (Cost.lift _) fun next => ?_
    split
    · refine Cost.bind0 (unrolledInitE_cost pr _ _ _ _) fun acc => ?_
      have hb : ∀ (p : Int) (st : Int × List (List τ)), Cost C 0 (do
          let acc ← unrolledBodyE t ops ld (useAligned t.e) t.e.size st.2 p st.1
          pure (st.1 + ((t.e.size * t.e.pol.unrollBy.toNat : Nat) : Int), acc) : Eff σ (Int × List (List τ))) :=
        fun p st => Cost.bind0 (unrolledBodyE_cost pr _ _ _ _) fun _ => Cost.pure _
      refine Cost.bind0 (hb _ _) fun st => Cost.bind0 (Cost.whileE hb _ _ _) fun r => ?_
      exact Cost.bind0 (treeReduceE_cost pr _ _) fun _ => Cost.bind0 (Cost.lift _) fun _ => Cost.pure _
    · exact firstLoadE_cost pr _ _
  · exact firstLoadE_cost pr _ _

theorem finishE_cost (pr : CostPrims C t ops ld) {j : Nat} (hj : Nat.log2 (stdBitCeil t.e.size / 2) + 1 ≤ j ∨ t.e.size = 1) (l : Nat) (a : τ) (st : AccSt τ) :
    Cost C j (finishE t ops ld l a st) := by
  unfold finishE
  dsimp only
  split
  · exact (pr.red1 _ _).mono (by omega)
  · have hj := hj.resolve_right (by assumption)
    split
    · exact Cost.mono (Cost.bind0 (pr.hredT _) fun _ => pr.red1 _ _) (by omega)
    · split
      · exact Cost.bind0 (pr.red _ _) fun _ => (epilogueAccE_cost pr _ _ _ _ _ _ _).mono hj
      · exact Cost.bind0 (pr.hredT _) fun _ => Cost.bind0 (pr.red1 _ _) fun _ => (epilogueAccE_cost pr _ _ _ _ _ _ _).mono hj

theorem restE_cost (pr : CostPrims C t ops ld) {j : Nat} (hj : Nat.log2 (stdBitCeil t.e.size / 2) + 1 ≤ j ∨ t.e.size = 1) (p : Int) (d : Nat) (a : τ) :
    Cost C j (restE t ops ld p d a) := by
  unfold restE
  dsimp only
  refine Cost.bind0 (Cost.lift _) fun sl => ?_
  split
  · refine Cost.bind0 (initAccE_cost pr _ _) fun st => ?_
    refine Cost.bind0 (Cost.whileE (fun p st => ?_) _ _ _) fun st => finishE_cost pr hj _ _ _
    exact Cost.bind0 (pr.full _ _ _) fun _ => Cost.bind0 (pr.red _ _) fun _ => Cost.pure _
  · split
    · rcases hj with hj | hj
      · exact (epilogueE_cost pr _ _ _ _ _ _).mono hj
      · rename_i h
        exact absurd h (by rw [hj]; decide)
    · exact (Cost.lift _).mono (by omega)

theorem runPrologue_cases {S : Type} (e : Env) (n : Nat) (doPro : Nat → Nat → S → Outcome S) (f : Int) (st : S) (r : Int × Nat × S)
    (h : runPrologue e n doPro f st = .ok r) :
    r.2.2 = st ∨ (prologuePossible e = true ∧ misalignedBytes e ≠ 0 ∧ doPro (maxMisalignment e) (toProcess e) st = .ok r.2.2) := by
  unfold runPrologue at h
  have key : ∀ (_ : prologuePossible e = true) (_ : ¬ misalignedBytes e = 0) (x : Int) (y : Nat),
      (doPro (maxMisalignment e) (toProcess e) st >>= fun st => Outcome.ok (x, y, st)) = .ok r →
      prologuePossible e = true ∧ misalignedBytes e ≠ 0 ∧ doPro (maxMisalignment e) (toProcess e) st = .ok r.2.2 := by
    intro h1 h2 x y h
    cases hd : doPro (maxMisalignment e) (toProcess e) st with
    | ok st' => rw [hd, Outcome.bind_ok] at h; simp only [Outcome.ok.injEq] at h; subst h; exact ⟨h1, h2, rfl⟩
    | ub r => rw [hd] at h; cases h
    | trap => rw [hd] at h; cases h
  have hpp : (useAligned e || maybeAnyway e) = true → prologuePossible e = true := by
    simp only [useAligned, maybeAnyway, Bool.or_eq_true, Bool.and_eq_true]
    rintro (h | h) <;> simp_all
  split at h
  · rename_i hu
    split at h
    · simp only [Outcome.ok.injEq] at h; subst h; exact Or.inl rfl
    · rename_i hm
      split at h
      · exact Or.inr (key (hpp hu) hm _ _ h)
      · split at h
        · exact Or.inr (key (hpp hu) hm _ _ h)
        · simp only [Outcome.ok.injEq] at h; subst h; exact Or.inl rfl
  · simp only [Outcome.ok.injEq] at h; subst h; exact Or.inl rfl

theorem log2_half_le {n j : Nat} (hn : 0 < n) (hj : n ≤ 2 ^ j) : Nat.log2 (stdBitCeil n / 2) + 1 ≤ j ∨ n = 1 := by
  by_cases h1 : n = 1
  · exact Or.inr h1
  · left
    obtain ⟨K, h2, h3, h4⟩ := stdBitCeil_spec (n := n) (by omega)
    have : K < j := (Nat.pow_lt_pow_iff_right (a := 2) (by omega)).1 (by omega)
    rw [h2, Nat.pow_succ, Nat.mul_div_cancel _ (by omega), Nat.log2_two_pow]
    omega

theorem transformReduceL_cost (pr : CostPrims C t ops ld) (wf : t.e.WF) (hce : t.e.constEval = false) {j : Nat} (hj : t.e.size ≤ 2 ^ j)
    (init : τ) : Cost C (2 * j) (transformReduceL t ops ld init) := by
  intro s s' r h
  unfold transformReduceL at h
  dsimp only at h
  split at h
  · exact ((Cost.pure init).mono (by omega : 0 ≤ 2 * j)) s s' r h
  · split at h
    · cases h
    · rw [hce] at h
      simp only [Bool.false_eq_true, if_false] at h
      cases hp : runPrologue t.e t.n (proE t ops ld) 0 (s, some init) with
      | ub r => rw [hp] at h; cases h
      | trap => rw [hp] at h; cases h
      | ok x =>
        rw [hp, Outcome.bind_ok] at h
        obtain ⟨f, d, s1, o⟩ := x
        have h1 : C s1 ≤ C s + j := by
          rcases runPrologue_cases _ _ _ _ _ _ hp with h1 | ⟨h1, h2, h3⟩
          · simp only [Prod.mk.injEq] at h1
            rw [h1.1]; omega
          · obtain ⟨K, hK⟩ := proInfo wf h1
            simp only [proE] at h3
            rw [hK.max] at h3
            have hKj : K ≤ j := (Nat.pow_le_pow_iff_right (a := 2) (by omega)).1 (Nat.le_trans hK.le_size hj)
            have := prologueRecE_cost pr K (toProcess t.e) 0 (K + 1) (hK.tp_lt h2) (by omega) (by omega) init _ _ _ h3
            omega
        cases o with
        | none =>
          simp only [Outcome.ok.injEq, Prod.mk.injEq] at h
          rw [← h.1]; omega
        | some a =>
          have := restE_cost pr (log2_half_le wf.size_pos hj) f d a _ _ _ h
          omega

/-! The measure: invocations of `transform_op` with objects that do not have the full width. -/

/-- An invocation with an object that does not have the full width. -/
def narrow (size : Nat) : REvent α β τ → Bool
  | .trans args _ => args.any (·.length != size)
  | _ => false

theorem loadIn_length (t : TEnv) (mem : List α) (w b : Nat) (p : Int) (c : List α) (h : loadIn t mem w b p = .ok c) : c.length = w := by
  unfold loadIn at h
  split at h
  · rename_i hi
    simp only [Outcome.ok.injEq] at h
    subst h
    simp only [Bool.and_eq_true, inRange, decide_eq_true_eq] at hi
    simp only [List.length_take, List.length_drop]
    omega
  · cases h

theorem loadIns_length (t : TEnv) (mem : List α) (w : Nat) (p : Int) (bs : List Nat) (cs : List (List α))
    (h : loadIns t mem w p bs = .ok cs) : ∀ c ∈ cs, c.length = w := by
  induction bs generalizing cs with
  | nil => simp only [loadIns, Outcome.ok.injEq] at h; subst h; simp
  | cons b bs ih =>
    unfold loadIns at h
    cases h1 : loadIn t mem w b p with
    | ub r => rw [h1] at h; cases h
    | trap => rw [h1] at h; cases h
    | ok c =>
      rw [h1, Outcome.bind_ok] at h
      cases h2 : loadIns t mem w p bs with
      | ub r => rw [h2] at h; cases h
      | trap => rw [h2] at h; cases h
      | ok cs' =>
        rw [h2, Outcome.bind_ok] at h
        simp only [Outcome.ok.injEq] at h
        subst h
        intro x hx
        rcases List.mem_cons.1 hx with rfl | hx
        · exact loadIn_length _ _ _ _ _ _ h1
        · exact ih _ h2 x hx

theorem loadInvokeE_log (t : TEnv) (ops : ROps σ α β τ) (mem : List α) (aligned : Bool) (w : Nat) (p1 p2 : Int)
    (s s' : σ × List (REvent α β τ)) (r : Option (List β)) (h : loadInvokeE t (loggedR ops) mem aligned w p1 p2 s = .ok (s', r)) :
    ∃ args, s'.2 = s.2 ++ [.trans args r] ∧ ∀ a ∈ args, a.length = w := by
  unfold loadInvokeE at h
  generalize t.ins = ins at h
  cases ins with
  | nil => cases h
  | cons b1 bs =>
    simp only at h
    rw [Eff.bind_def] at h
    cases hl : (if (aligned && !alignedAt t.e p1 w) = true then Outcome.ub UB.misaligned else loadIn t mem w b1 p1) with
    | ub r => rw [hl] at h; cases h
    | trap => rw [hl] at h; cases h
    | ok c =>
      have hc : c.length = w := by
        split at hl
        · cases hl
        · exact loadIn_length _ _ _ _ _ _ hl
      rw [hl, Eff.lift_ok, Eff.pure_def] at h
      simp only at h
      rw [Eff.bind_def] at h
      cases h2 : loadIns t mem w p2 bs with
      | ub r => rw [h2] at h; cases h
      | trap => rw [h2] at h; cases h
      | ok cs =>
        rw [h2, Eff.lift_ok, Eff.pure_def] at h
        simp only [Eff.invoke, loggedR, Outcome.ok.injEq, Prod.mk.injEq] at h
        refine ⟨c :: cs, ?_, ?_⟩
        · rw [← h.1, ← h.2]
        · intro a ha
          rcases List.mem_cons.1 ha with rfl | ha
          · exact hc
          · exact loadIns_length _ _ _ _ _ _ h2 a ha

/-- The number of invocations of `transform_op` that are not full-width. -/
theorem narrow_prims (t : TEnv) (ops : ROps σ α β τ) (mem : List α) :
    CostPrims (fun s : σ × List (REvent α β τ) => s.2.countP (narrow t.e.size)) t (loggedR ops) (loadInvokeE t (loggedR ops) mem) where
  full aligned p1 p2 := by
    intro s s' r h
    obtain ⟨args, h1, h2⟩ := loadInvokeE_log t ops mem aligned _ p1 p2 s s' r h
    have : narrow t.e.size (REvent.trans args r : REvent α β τ) = false := by
      simp only [narrow, List.any_eq_false, bne_iff_ne, ne_eq, Decidable.not_not]
      exact h2
    simp [h1, List.countP_append, this]
  any aligned w p1 p2 := by
    intro s s' r h
    obtain ⟨args, h1, h2⟩ := loadInvokeE_log t ops mem aligned _ p1 p2 s s' r h
    simp only [h1, List.countP_append, List.countP_singleton]
    split <;> omega
  red x y := by
    intro s s' r h
    simp only [redE, Eff.invoke, loggedR, Outcome.ok.injEq, Prod.mk.injEq] at h
    rw [← h.1]; simp [List.countP_append, narrow]
  hredT v := by
    intro s s' r h
    simp only [hredTE, Eff.invoke, loggedR, Outcome.ok.injEq, Prod.mk.injEq] at h
    rw [← h.1]; simp [List.countP_append, narrow]
  hredB v := by
    intro s s' r h
    simp only [hredBE, Eff.invoke, loggedR, Outcome.ok.injEq, Prod.mk.injEq] at h
    rw [← h.1]; simp [List.countP_append, narrow]

theorem transCalls_le (size m : Nat) (hm : 0 < m) (log : List (REvent α β τ)) (h : ∀ ev ∈ log, ShapeOk size m ev) :
    size * transCalls log ≤ (transformedArgs 0 log).length + size * log.countP (narrow size) := by
  induction log with
  | nil => simp [transCalls]
  | cons ev log ih =>
    have ih := ih fun ev hev => h ev (by simp [hev])
    have hev := h ev (by simp)
    cases ev with
    | trans args r =>
      obtain ⟨h1, w, h2, h3⟩ := hev
      cases args with
      | nil => simp at h1; omega
      | cons a args =>
        simp only [transCalls, transformedArgs, List.getD_cons_zero, List.length_append, List.countP_cons]
        by_cases hw : narrow size (REvent.trans (a :: args) r : REvent α β τ) = true
        · simp only [hw, if_true, Nat.mul_add]
          omega
        · have ha : a.length = size := by
            simp only [narrow, List.any_cons, Bool.or_eq_true, not_or, bne_iff_ne, ne_eq, Decidable.not_not] at hw
            exact hw.1
          simp only [hw, Nat.mul_add]
          simp
          omega
    | red x y r => simpa [transCalls, transformedArgs, narrow] using ih
    | hredB v r => simpa [transCalls, transformedArgs, narrow] using ih
    | hredT v r => simpa [transCalls, transformedArgs, narrow] using ih

/-! ### Invocations of `reduce_op`

They are compared with the invocations of `transform_op`: in the loops there is one for each of them. -/

/-- If a piece of code returns normally then the measure `D` has changed by at most `c`. -/
def CostZ {A : Type} (D : σ → Int) (c : Int) (m : Eff σ A) : Prop := ∀ s s' a, m s = .ok (s', some a) → D s' ≤ D s + c

variable {D : σ → Int}

theorem CostZ.pure (a : A) : CostZ D 0 (pure a : Eff σ A) := by
  intro s s' r h
  simp only [Eff.pure_def, Outcome.ok.injEq, Prod.mk.injEq] at h
  rw [← h.1]; omega

theorem CostZ.lift (x : Outcome A) : CostZ D 0 (lift x : Eff σ A) := by
  intro s s' r h
  cases x with
  | ok a => exact CostZ.pure a s s' r h
  | ub r => cases h
  | trap => cases h

theorem CostZ.lift_ub (x : UB) (c : Int) : CostZ D c (Eff.lift (.ub x) : Eff σ A) := by
  intro s s' r h
  cases h

theorem CostZ.bind {c1 c2 c : Int} {m : Eff σ A} {f : A → Eff σ B} (h1 : CostZ D c1 m) (h2 : ∀ a, CostZ D c2 (f a))
    (hc : c1 + c2 ≤ c) : CostZ D c (m >>= f) := by
  intro s s' r h
  rw [Eff.bind_def] at h
  cases hm : m s with
  | ok x =>
    obtain ⟨s1, v⟩ := x
    rw [hm] at h
    cases v with
    | none => cases h
    | some a =>
      have := h1 _ _ _ hm
      have := h2 a _ _ _ h
      omega
  | ub r => rw [hm] at h; cases h
  | trap => rw [hm] at h; cases h

theorem CostZ.mono {c c' : Int} {m : Eff σ A} (h : CostZ D c m) (hc : c ≤ c') : CostZ D c' m := by
  intro s s' r hm
  have := h s s' r hm
  omega

theorem CostZ.foldlM (V : Nat → Int) {f : A → Nat → Eff σ A} (m k : Nat) (h : ∀ a i, CostZ D (V (i + 1) - V i) (f a i)) (a : A) :
    CostZ D (V (k + m) - V k) ((List.range' k m).foldlM f a) := by
  induction m generalizing k a with
  | zero => exact (CostZ.pure a).mono (by simp)
  | succ m ih =>
    rw [List.range'_succ, List.foldlM_cons]
    have e : k + (m + 1) = k + 1 + m := by omega
    exact (h a k).bind (fun b => ih (k + 1) b) (by rw [e]; omega)

theorem CostZ.whileE {cond : Int → Bool} {step : Nat} {body : Int → A → Eff σ A} (h : ∀ p a, CostZ D 0 (body p a)) (fuel : Nat) (p : Int) (a : A) :
    CostZ D 0 (TransformReduce.whileE cond step body fuel p a) := by
  induction fuel generalizing p a with
  | zero => exact CostZ.lift _
  | succ fuel ih =>
    unfold TransformReduce.whileE
    split
    · exact (h _ _).bind (fun _ => ih _ _) (by omega)
    · exact CostZ.pure _

/-- An invocation of `transform_op` counts `-1`, one of `reduce_op` counts `1`. -/
structure CostZPrims (D : σ → Int) (ops : ROps σ α β τ) (ld : Loader σ β) : Prop where
  ld : ∀ aligned w p1 p2, CostZ D (-1) (ld aligned w p1 p2)
  red : ∀ x y, CostZ D 1 (redE ops x y)
  hredT : ∀ v, CostZ D 1 (hredTE ops v)
  hredB : ∀ v, CostZ D 1 (hredBE ops v)

theorem CostZPrims.red1 (pr : CostZPrims D ops ld) (a : τ) (y : List τ) : CostZ D 1 (red1E ops a y) :=
  (pr.red _ _).bind (fun _ => CostZ.lift _) (by omega)

theorem prologueRecE_costZ (pr : CostZPrims D ops ld) (K tp k m : Nat) (htp : tp < 2 ^ K) (hk : k + m = K + 1) (hm : 0 < m) (a : τ) :
    CostZ D ((m - 1 : Nat) : Int) (prologueRecE t ops ld (2 ^ K) tp k a) := by
  induction m generalizing k a with
  | zero => omega
  | succ m ih =>
    unfold prologueRecE
    rw [if_neg (by simp [hasSingleBit_two_pow])]
    have hnext : ∀ a, CostZ D ((m - 1 : Nat) : Int) (if _h : 2 ^ k < 2 ^ K then prologueRecE t ops ld (2 ^ K) tp (k + 1) a else Pure.pure a) := by
      intro a
      split
      · rename_i h
        have : k < K := (Nat.pow_lt_pow_iff_right (by omega)).1 h
        exact ih (k + 1) (by omega) (by omega) a
      · exact (CostZ.pure a).mono (by omega)
    by_cases hb : (tp &&& 2 ^ k) ≠ 0
    · have hkK : k < K := by
        have := (and_two_pow_ne_zero _ _).1 hb
        have := Nat.ge_two_pow_of_testBit this
        exact (Nat.pow_lt_pow_iff_right (a := 2) (by omega)).1 (by omega)
      rw [if_pos hb]
      exact (pr.ld _ _ _ _).bind (c2 := 1 + 1 + ((m - 1 : Nat) : Int)) (fun v => (pr.hredB _).bind (c2 := 1 + ((m - 1 : Nat) : Int))
        (fun _ => (pr.red1 _ _).bind (fun a => hnext a) (Int.le_refl _)) (by omega)) (by omega)
    · rw [if_neg hb]
      exact (CostZ.pure a).bind hnext (by omega)

theorem epilogueAccE_costZ (pr : CostZPrims D ops ld) (aligned : Bool) (l k : Nat) (a : τ) (acc : List τ) (p1 p2 : Int) :
    CostZ D ((k : Int) + 1) (epilogueAccE t ops ld aligned l k a acc p1 p2) := by
  induction k generalizing a acc p1 p2 with
  | zero =>
    unfold epilogueAccE
    split
    · exact (pr.ld _ _ _ _).bind (c2 := 2) (fun v => (pr.red _ _).bind (fun _ => pr.red1 _ _) (by omega)) (by omega)
    · exact CostZ.lift_ub _ _
  | succ k ih =>
    unfold epilogueAccE
    dsimp only
    split
    · refine (pr.ld _ _ _ _).bind (c2 := (k : Int) + 3) (fun v => (pr.red _ _).bind (c2 := (k : Int) + 2) (fun acc => ?_) (by omega)) (by omega)
      split
      · exact (pr.hredT _).bind (fun _ => pr.red1 _ _) (by omega)
      · exact (pr.red _ _).bind (fun _ => ih _ _ _ _) (by omega)
    · split
      · exact CostZ.lift_ub _ _
      · exact (pr.red _ _).bind (fun _ => ih _ _ _ _) (by omega)

theorem epilogueE_costZ (pr : CostZPrims D ops ld) (aligned : Bool) (l k : Nat) (a : τ) (p1 p2 : Int) :
    CostZ D ((k : Int) + 1) (epilogueE t ops ld aligned l k a p1 p2) := by
  induction k generalizing a p1 p2 with
  | zero =>
    unfold epilogueE
    split
    · exact (pr.ld _ _ _ _).bind (fun v => pr.red1 _ _) (by omega)
    · exact CostZ.lift_ub _ _
  | succ k ih =>
    unfold epilogueE
    dsimp only
    split
    · refine (pr.ld _ _ _ _).bind (c2 := (k : Int) + 2) (fun v => ?_) (by omega)
      split
      · exact (pr.hredT _).bind (fun _ => pr.red1 _ _) (by omega)
      · exact (pr.red _ _).bind (fun _ => epilogueAccE_costZ pr _ _ _ _ _ _ _) (by omega)
    · split
      · exact CostZ.lift_ub _ _
      · exact (ih _ _ _).mono (by omega)

theorem unrolledInitE_costZ (pr : CostZPrims D ops ld) (aligned : Bool) (w k : Nat) (p1 p2 : Int) :
    CostZ D (-(k : Int)) (unrolledInitE t ops ld aligned w k p1 p2) := by
  induction k generalizing p1 p2 with
  | zero => exact CostZ.pure _
  | succ k ih =>
    unfold unrolledInitE
    exact (pr.ld _ _ _ _).bind (c2 := -(k : Int)) (fun _ => (ih _ _).bind (fun _ => CostZ.pure _) (by omega)) (by omega)

theorem unrolledBodyE_costZ (pr : CostZPrims D ops ld) (aligned : Bool) (w : Nat) (as : List (List τ)) (p1 p2 : Int) :
    CostZ D 0 (unrolledBodyE t ops ld aligned w as p1 p2) := by
  induction as generalizing p1 p2 with
  | nil => exact CostZ.pure _
  | cons a as ih =>
    unfold unrolledBodyE
    exact (pr.ld _ _ _ _).bind (c2 := 1) (fun _ => (pr.red _ _).bind (c2 := 0) (fun _ => (ih _ _).bind (fun _ => CostZ.pure _) (by omega))
      (by omega)) (by omega)

theorem treeReduceE_costZ (pr : CostZPrims D ops ld) (U : Nat) (hU : 0 < U) (acc : List (List τ)) :
    CostZ D ((U : Int) - 1) (treeReduceE ops U acc) := by
  unfold treeReduceE
  have hend : treeLive U (stdBitWidth (U - 1)) = 1 := by
    have h1 := lt_treeLive U (stdBitWidth (U - 1)) 1
    have h0 := lt_treeLive U (stdBitWidth (U - 1)) 0
    have := le_two_pow_bitWidth U
    simp only [Nat.one_mul, Nat.zero_mul] at h1 h0
    omega
  have main := CostZ.foldlM (D := D) (fun o => -(treeLive U o : Int))
    (f := fun acc outer => (List.range (U / 2)).foldlM (treeInnerE ops U (2 ^ outer)) acc) (stdBitWidth (U - 1)) 0
    (by
      intro acc o
      have hc := treeLive_le U o
      have inner := CostZ.foldlM (D := D) (fun i => (min i (treeLive U o / 2) : Nat)) (f := treeInnerE ops U (2 ^ o)) (U / 2) 0
        (by
          intro acc ii
          have hiff : ii * 2 * 2 ^ o + 2 ^ o < U ↔ ii < treeLive U o / 2 := by
            have := lt_treeLive U o (2 * ii + 1)
            rw [Nat.add_mul, Nat.one_mul, Nat.mul_comm 2 ii] at this
            rw [← this]; omega
          unfold treeInnerE
          dsimp only
          by_cases h : ii * 2 * 2 ^ o + 2 ^ o < U
          · rw [if_pos h]
            have hlt := hiff.1 h
            split
            · exact (pr.red _ _).bind (fun _ => CostZ.pure _) (by omega)
            · exact (CostZ.pure _).mono (by omega)
          · rw [if_neg h]
            exact (CostZ.pure _).mono (by omega)) acc
      rw [List.range_eq_range']
      refine inner.mono ?_
      simp only [treeLive]
      omega) acc
  rw [show List.range (stdBitWidth (U - 1)) = List.range' 0 (stdBitWidth (U - 1)) from List.range_eq_range']
  refine main.mono ?_
  simp only [Nat.zero_add, hend, treeLive]
  omega

theorem firstLoadE_costZ (pr : CostZPrims D ops ld) (p1 p2 : Int) : CostZ D (-1) (firstLoadE t ops ld p1 p2) :=
  (pr.ld _ _ _ _).bind (fun _ => CostZ.pure _) (by omega)

theorem initAccE_costZ (pr : CostZPrims D ops ld) (p1 p2 : Int) : CostZ D (-1) (initAccE t ops ld p1 p2) := by
  unfold initAccE
  split
  · rename_i hu
    refine (CostZ.lift _).bind (c2 := -1) (fun ul => (CostZ.lift _).bind (c2 := -1) (fun next => ?_) (by omega)) (by omega)
    split
    · refine (unrolledInitE_costZ pr _ _ _ _ _).bind (c2 := (t.e.pol.unrollBy.toNat : Int) - 1) (fun acc => ?_) (by omega)
      have hb : ∀ (p : Int) (st : Int × List (List τ)), CostZ D 0 (do
          let acc ← unrolledBodyE t ops ld (useAligned t.e) t.e.size st.2 p st.1
          pure (st.1 + ((t.e.size * t.e.pol.unrollBy.toNat : Nat) : Int), acc) : Eff σ (Int × List (List τ))) :=
        fun p st => (unrolledBodyE_costZ pr _ _ _ _ _).bind (fun _ => CostZ.pure _) (by omega)
      refine (hb _ _).bind (c2 := (t.e.pol.unrollBy.toNat : Int) - 1) (fun st => (CostZ.whileE hb _ _ _).bind
        (c2 := (t.e.pol.unrollBy.toNat : Int) - 1) (fun r => ?_) (by omega)) (by omega)
      exact (treeReduceE_costZ pr _ (by omega) _).bind (c2 := 0) (fun _ => (CostZ.lift _).bind (fun _ => CostZ.pure _) (by omega)) (by omega)
    · exact firstLoadE_costZ pr _ _
  · exact firstLoadE_costZ pr _ _

theorem finishE_costZ (pr : CostZPrims D ops ld) {j : Nat} (hj : Nat.log2 (stdBitCeil t.e.size / 2) + 1 ≤ j ∨ t.e.size = 1) (l : Nat) (a : τ)
    (st : AccSt τ) : CostZ D ((j : Int) + 2) (finishE t ops ld l a st) := by
  unfold finishE
  dsimp only
  split
  · exact (pr.red1 _ _).mono (by omega)
  · have hj := hj.resolve_right (by assumption)
    split
    · exact (pr.hredT _).bind (fun _ => pr.red1 _ _) (by omega)
    · split
      · exact (pr.red _ _).bind (fun _ => epilogueAccE_costZ pr _ _ _ _ _ _ _) (by omega)
      · exact (pr.hredT _).bind (c2 := (j : Int) + 1) (fun _ => (pr.red1 _ _).bind (fun _ => epilogueAccE_costZ pr _ _ _ _ _ _ _) (by omega))
          (by omega)

theorem restE_costZ (pr : CostZPrims D ops ld) {j : Nat} (hj : Nat.log2 (stdBitCeil t.e.size / 2) + 1 ≤ j ∨ t.e.size = 1) (p : Int) (d : Nat)
    (a : τ) : CostZ D ((j : Int) + 1) (restE t ops ld p d a) := by
  unfold restE
  dsimp only
  refine (CostZ.lift _).bind (c2 := (j : Int) + 1) (fun sl => ?_) (by omega)
  split
  · refine (initAccE_costZ pr _ _).bind (c2 := (j : Int) + 2) (fun st => ?_) (by omega)
    refine (CostZ.whileE (fun p st => ?_) _ _ _).bind (fun st => finishE_costZ pr hj _ _ _) (by omega)
    exact (pr.ld _ _ _ _).bind (c2 := 1) (fun _ => (pr.red _ _).bind (fun _ => CostZ.pure _) (by omega)) (by omega)
  · split
    · rcases hj with hj | hj
      · exact (epilogueE_costZ pr _ _ _ _ _ _).mono (by omega)
      · rename_i h
        exact absurd h (by rw [hj]; decide)
    · exact CostZ.lift_ub _ _

theorem transformReduceL_costZ (pr : CostZPrims D ops ld) (wf : t.e.WF) (hce : t.e.constEval = false) {j : Nat} (hj : t.e.size ≤ 2 ^ j)
    (init : τ) : CostZ D (2 * (j : Int) + 1) (transformReduceL t ops ld init) := by
  intro s s' r h
  unfold transformReduceL at h
  dsimp only at h
  split at h
  · exact ((CostZ.pure init).mono (by omega : 0 ≤ 2 * (j : Int) + 1)) s s' r h
  · split at h
    · cases h
    · rw [hce] at h
      simp only [Bool.false_eq_true, if_false] at h
      cases hp : runPrologue t.e t.n (proE t ops ld) 0 (s, some init) with
      | ub r => rw [hp] at h; cases h
      | trap => rw [hp] at h; cases h
      | ok x =>
        rw [hp, Outcome.bind_ok] at h
        obtain ⟨f, d, s1, o⟩ := x
        cases o with
        | none => cases h
        | some a =>
          have h1 : D s1 ≤ D s + j := by
            rcases runPrologue_cases _ _ _ _ _ _ hp with h1 | ⟨h1, h2, h3⟩
            · simp only [Prod.mk.injEq] at h1
              rw [h1.1]; omega
            · obtain ⟨K, hK⟩ := proInfo wf h1
              simp only [proE] at h3
              rw [hK.max] at h3
              have hKj : K ≤ j := (Nat.pow_le_pow_iff_right (a := 2) (by omega)).1 (Nat.le_trans hK.le_size hj)
              have := prologueRecE_costZ pr K (toProcess t.e) 0 (K + 1) (hK.tp_lt h2) (by omega) (by omega) init _ _ _ h3
              omega
          have := restE_costZ pr (log2_half_le wf.size_pos hj) f d a _ _ _ h
          omega

theorem transCalls_append (a b : List (REvent α β τ)) : transCalls (a ++ b) = transCalls a + transCalls b := by
  induction a with
  | nil => simp [transCalls]
  | cons ev a ih => cases ev <;> simp [transCalls, ih] <;> omega

theorem reduceCallsIn_append (a b : List (REvent α β τ)) : reduceCallsIn (a ++ b) = reduceCallsIn a + reduceCallsIn b := by
  induction a with
  | nil => simp [reduceCallsIn]
  | cons ev a ih => cases ev <;> simp [reduceCallsIn, ih] <;> omega

/-- More invocations of `reduce_op` than of `transform_op`. -/
theorem surplus_prims (t : TEnv) (ops : ROps σ α β τ) (mem : List α) :
    CostZPrims (fun s : σ × List (REvent α β τ) => (reduceCallsIn s.2 : Int) - transCalls s.2) (loggedR ops)
      (loadInvokeE t (loggedR ops) mem) where
  ld aligned w p1 p2 := by
    intro s s' r h
    obtain ⟨args, h1, h2⟩ := loadInvokeE_log t ops mem aligned _ p1 p2 s s' _ h
    simp only [h1, transCalls_append, reduceCallsIn_append]
    simp only [transCalls, reduceCallsIn]
    omega
  red x y := by
    intro s s' r h
    simp only [redE, Eff.invoke, loggedR, Outcome.ok.injEq, Prod.mk.injEq] at h
    rw [← h.1]; simp only [transCalls_append, reduceCallsIn_append, transCalls, reduceCallsIn]; omega
  hredT v := by
    intro s s' r h
    simp only [hredTE, Eff.invoke, loggedR, Outcome.ok.injEq, Prod.mk.injEq] at h
    rw [← h.1]; simp only [transCalls_append, reduceCallsIn_append, transCalls, reduceCallsIn]; omega
  hredB v := by
    intro s s' r h
    simp only [hredBE, Eff.invoke, loggedR, Outcome.ok.injEq, Prod.mk.injEq] at h
    rw [← h.1]; simp only [transCalls_append, reduceCallsIn_append, transCalls, reduceCallsIn]; omega

end TransformReduce
end Vir
