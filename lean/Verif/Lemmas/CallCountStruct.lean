import Verif.Lemmas.CallCount
import Verif.Model.ThrowingArrays

/-! Lemmas about the number of invocations on arrays of structs. -/

namespace Vir
open Spec ForEach Transform TransformArrays

variable {σ α : Type}

/-- The number of chunks and of groups without prologue. -/
theorem groupsOf_count_aligned {e : Env} (wf : e.WF) {n j : Nat} (hp : proCount e n = 0) (hj : e.size ≤ 2 ^ j) :
    chunkCount (groupsOf e n) ≤ n / e.size + j ∧
    (groupsOf e n).length ≤ n / (e.size * max 1 e.pol.unrollBy.toNat) + (max 1 e.pol.unrollBy.toNat - 1) + j := by
  unfold groupsOf
  split
  · simp [chunkCount]
  have hs := wf.size_pos
  rw [hp]
  have h2 : (bitsDesc (n % e.size)).length ≤ j := bitsDesc_length (by have := Nat.mod_lt n hs; omega)
  have hc : ∀ a b : List Group, chunkCount (a ++ b) = chunkCount a + chunkCount b := by intro a b; simp [chunkCount]
  have hrep : ∀ q (g : Group), chunkCount (List.replicate q g) = q * g.k := by intro q g; simp [chunkCount]
  have hlen : ∀ a (ws : List Nat), (chunked a ws).length = ws.length := by intro a ws; simp [chunked]
  simp only [hc, hrep, chunkCount_chunked, List.length_append, List.length_replicate, hlen, Nat.sub_zero, bitsAsc_zero, List.length_nil]
  by_cases hu : e.pol.unrollBy > 1
  · have hU : max 1 e.pol.unrollBy.toNat = unroll e := by unfold unroll; omega
    have hU1 : 1 < unroll e := by unfold unroll; omega
    rw [hU]
    have hit : unrolledIters e n = n / (e.size * unroll e) := by simp [unrolledIters, hu]
    rw [hit]
    have hmod : n - n / (e.size * unroll e) * (e.size * unroll e) = n % (e.size * unroll e) := by
      have := Nat.div_add_mod n (e.size * unroll e)
      rw [Nat.mul_comm] at this
      omega
    rw [hmod]
    have hpos : 0 < e.size * unroll e := Nat.mul_pos hs (by omega)
    have hq2 : n % (e.size * unroll e) / e.size < unroll e := by
      rw [Nat.div_lt_iff_lt_mul hs, Nat.mul_comm (unroll e)]; exact Nat.mod_lt _ hpos
    have hsum : n / (e.size * unroll e) * unroll e + n % (e.size * unroll e) / e.size = n / e.size := by
      rw [Nat.mod_mul_right_div_self, ← Nat.div_div_eq_div_mul, Nat.mul_comm]
      exact Nat.div_add_mod _ _
    constructor <;> omega
  · have hU : max 1 e.pol.unrollBy.toNat = 1 := by omega
    have hit : unrolledIters e n = 0 := by simp [unrolledIters, hu]
    simp only [hU, hit, Nat.mul_one, Nat.zero_mul, Nat.sub_zero]
    constructor <;> omega

theorem evalGroupA_log (zero : α) (junk : Nat → α) (A : AEnv) (op : TOp σ (List α)) (arrays : List (List α)) (w : Nat) (p1 p2 : Int)
    (is : List Nat) (s : σ) (log : List (OpEvent (List α))) (r : (σ × List (OpEvent (List α))) × Option (List (Nat × List (List α))))
    (h : evalGroupA zero junk A (loggedOp op) arrays w p1 p2 is (s, log) = .ok r) : r.1.2.length ≤ log.length + is.length := by
  induction is generalizing s log r with
  | nil => simp only [evalGroupA, Outcome.ok.injEq] at h; subst h; simp
  | cons i is ih =>
    unfold evalGroupA at h
    cases hl : loadArgsA zero junk A arrays w (p1 + ((i * w : Nat) : Int)) (p2 + ((i * w : Nat) : Int)) with
    | ub r => rw [hl] at h; cases h
    | trap => rw [hl] at h; cases h
    | ok args =>
      rw [hl, Outcome.bind_ok] at h
      simp only [loggedOp] at h
      generalize op.call s args = c at h
      obtain ⟨s1, v⟩ := c
      cases v with
      | none => simp only [Outcome.ok.injEq] at h; subst h; simp
      | some v =>
        simp only at h
        cases hr : evalGroupA zero junk A (loggedOp op) arrays w p1 p2 is (s1, log ++ [⟨args, some v⟩]) with
        | ok r' =>
          unfold loggedOp at hr
          rw [hr, Outcome.bind_ok] at h
          simp only [Outcome.ok.injEq] at h
          subst h
          have := ih s1 _ _ (by unfold loggedOp; exact hr)
          simp at this ⊢; omega
        | ub r => unfold loggedOp at hr; rw [hr] at h; cases h
        | trap => unfold loggedOp at hr; rw [hr] at h; cases h

theorem chunksTA_log (zero : α) (junk : Nat → α) (A : AEnv) (ord : Nat → List Nat) (hord : ∀ k, (ord k).Perm (List.range k))
    (op : TOp σ (List α)) (w k : Nat) (aligned : Bool) (p1 d p2 : Int) (st st' : TState (σ × List (OpEvent (List α))) (List α))
    (h : chunksTA zero junk A ord (loggedOp op) w aligned k p1 d p2 st = .ok st') :
    (recordOf st').length ≤ (recordOf st).length + k := by
  unfold chunksTA at h
  match st with
  | .inr x => simp only [Outcome.ok.injEq] at h; subst h; simp [recordOf]
  | .inl ((s, log), mem) =>
    simp only at h
    cases hl : evalGroupA zero junk A (loggedOp op) mem w p1 p2 (ord k) (s, log) with
    | ub r => rw [hl] at h; cases h
    | trap => rw [hl] at h; cases h
    | ok r =>
      rw [hl, Outcome.bind_ok] at h
      have hlen := evalGroupA_log zero junk A op mem w p1 p2 (ord k) s log r hl
      rw [(hord k).length_eq, List.length_range] at hlen
      obtain ⟨s1, v⟩ := r
      cases v with
      | none => simp only [Outcome.ok.injEq] at h; subst h; exact hlen
      | some rs =>
        simp only at h
        cases hst : storeGroupA junk A aligned w rs d (List.range k) mem with
        | ok m => rw [hst, Outcome.bind_ok] at h; simp only [Outcome.ok.injEq] at h; subst h; exact hlen
        | ub r => rw [hst] at h; cases h
        | trap => rw [hst] at h; cases h

/-! ### `transform_reduce` -/

open TransformReduce
variable {β τ : Type} {zero : α} {junk : Nat → α}

theorem loadA_width {arrays : List (List α)} {w : Nat} {I : Range} {pos : Int} {r : List (List α)}
    (h : loadA zero junk arrays w I pos = .ok r) : r.length = w := by
  unfold loadA at h
  cases hm : arrays[I.arr]? with
  | none => rw [hm] at h; cases h
  | some mem =>
    rw [hm] at h
    simp only at h
    cases hl : ForEachStruct.load I.F zero junk mem w pos with
    | ub x => rw [hl] at h; cases h
    | trap => rw [hl] at h; cases h
    | ok v =>
      rw [hl, Outcome.bind_ok, Outcome.ok.injEq] at h
      rw [← h]; simp [lanesOf]

theorem loadsA_width {arrays : List (List α)} {w : Nat} {pos : Int} {Is : List Range} {r : List (List (List α))}
    (h : loadsA zero junk arrays w pos Is = .ok r) : ∀ a ∈ r, a.length = w := by
  induction Is generalizing r with
  | nil => simp only [loadsA, Outcome.ok.injEq] at h; subst h; simp
  | cons I Is ih =>
    simp only [loadsA] at h
    cases h1 : loadA zero junk arrays w I pos with
    | ub x => rw [h1] at h; cases h
    | trap => rw [h1] at h; cases h
    | ok c =>
      rw [h1, Outcome.bind_ok] at h
      cases h2 : loadsA zero junk arrays w pos Is with
      | ub x => rw [h2] at h; cases h
      | trap => rw [h2] at h; cases h
      | ok cs =>
        rw [h2, Outcome.bind_ok, Outcome.ok.injEq] at h
        subst h
        intro a ha
        rcases List.mem_cons.1 ha with rfl | ha
        · exact loadA_width h1
        · exact ih h2 a ha

theorem loadArraysInvoke_log (e : Env) (ins : List Range) (ops : ROps σ (List α) β τ) (arrays : List (List α)) (aligned : Bool) (w : Nat)
    (p1 p2 : Int) (s s' : σ × List (REvent (List α) β τ)) (r : Option (List β))
    (h : loadArraysInvoke zero junk e ins (loggedR ops) arrays aligned w p1 p2 s = .ok (s', r)) :
    ∃ args, s'.2 = s.2 ++ [.trans args r] ∧ ∀ a ∈ args, a.length = w := by
  unfold loadArraysInvoke at h
  cases ins with
  | nil => cases h
  | cons I Is =>
    simp only at h
    rw [Eff.bind_def] at h
    cases hl : (if (aligned && !alignedAt e p1 w) = true then Outcome.ub UB.misaligned else loadA zero junk arrays w I p1) with
    | ub r => rw [hl] at h; cases h
    | trap => rw [hl] at h; cases h
    | ok c =>
      have hc : c.length = w := by
        split at hl
        · cases hl
        · exact loadA_width hl
      rw [hl, Eff.lift_ok, Eff.pure_def] at h
      simp only at h
      rw [Eff.bind_def] at h
      cases h2 : loadsA zero junk arrays w p2 Is with
      | ub r => rw [h2] at h; cases h
      | trap => rw [h2] at h; cases h
      | ok cs =>
        rw [h2, Eff.lift_ok, Eff.pure_def] at h
        simp only [Eff.invoke, loggedR, Outcome.ok.injEq, Prod.mk.injEq] at h
        refine ⟨c :: cs, ?_, ?_⟩
        · rw [← h.1, ← h.2]
        · intro a ha
          rcases List.mem_cons.1 ha with rfl | ha
          · exact hc
          · exact loadsA_width h2 a ha

theorem narrow_primsA (t : TEnv) (ins : List Range) (ops : ROps σ (List α) β τ) (arrays : List (List α)) :
    CostPrims (fun s : σ × List (REvent (List α) β τ) => s.2.countP (narrow t.e.size)) t (loggedR ops)
      (loadArraysInvoke zero junk t.e ins (loggedR ops) arrays) where
  full aligned p1 p2 := by
    intro s s' r h
    obtain ⟨args, h1, h2⟩ := loadArraysInvoke_log t.e ins ops arrays aligned _ p1 p2 s s' r h
    have : narrow t.e.size (REvent.trans args r : REvent (List α) β τ) = false := by
      simp only [narrow, List.any_eq_false, bne_iff_ne, ne_eq, Decidable.not_not]
      exact h2
    simp [h1, List.countP_append, this]
  any aligned w p1 p2 := by
    intro s s' r h
    obtain ⟨args, h1, h2⟩ := loadArraysInvoke_log t.e ins ops arrays aligned _ p1 p2 s s' r h
    simp only [h1, List.countP_append, List.countP_singleton]
    split <;> omega
  red := (narrow_prims t ops []).red
  hredT := (narrow_prims t ops []).hredT
  hredB := (narrow_prims t ops []).hredB

theorem surplus_primsA (e : Env) (ins : List Range) (ops : ROps σ (List α) β τ) (arrays : List (List α)) :
    CostZPrims (fun s : σ × List (REvent (List α) β τ) => (reduceCallsIn s.2 : Int) - transCalls s.2) (loggedR ops)
      (loadArraysInvoke zero junk e ins (loggedR ops) arrays) where
  ld aligned w p1 p2 := by
    intro s s' r h
    obtain ⟨args, h1, h2⟩ := loadArraysInvoke_log e ins ops arrays aligned _ p1 p2 s s' _ h
    simp only [h1, transCalls_append, reduceCallsIn_append]
    simp only [transCalls, reduceCallsIn]
    omega
  red := (surplus_prims ⟨e, [], 0, 0⟩ ops []).red
  hredT := (surplus_prims ⟨e, [], 0, 0⟩ ops []).hredT
  hredB := (surplus_prims ⟨e, [], 0, 0⟩ ops []).hredB

end Vir
