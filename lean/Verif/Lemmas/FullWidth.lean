import Verif.Lemmas.CallCount
import Verif.Lemmas.ForEachStruct
import Verif.Lemmas.ForEachTrace

/-! Lemmas about the width of the simd objects under `assume_matching_size`. -/

namespace Vir
open Spec ForEach Transform

variable {σ α β τ S : Type}

theorem runGroups_keeps (inv : Group → Nat → S → Outcome S) (P : S → Prop) (gs : List Group)
    (h : ∀ g ∈ gs, ∀ p st st', P st → inv g p st = .ok st' → P st') (p : Nat) (st st' : S) (h0 : P st)
    (hr : runGroups inv p gs st = .ok st') : P st' := by
  induction gs generalizing p st with
  | nil => simp only [runGroups, Outcome.ok.injEq] at hr; subst hr; exact h0
  | cons g gs ih =>
    simp only [runGroups] at hr
    cases hg : inv g p st with
    | ok st1 =>
      rw [hg, Outcome.bind_ok] at hr
      exact ih (fun g hg => h g (by simp [hg])) _ _ (h g (by simp) p st st1 h0 hg) hr
    | ub r => rw [hg] at hr; cases hr
    | trap => rw [hg] at hr; cases hr

/-- With `assume_matching_size` and a matching size there are only chunks of the full width. -/
theorem groupsOf_full {e : Env} (wf : e.WF) (ha : e.pol.assumeMatchingSize = true) {n : Nat} (hd : e.size ∣ n) :
    ∀ g ∈ groupsOf e n, g.w = e.size := by
  intro g hg
  unfold groupsOf at hg
  rw [proCount_assume wf _ ha] at hg
  split at hg
  · simp at hg
  · simp only [bitsAsc_zero, chunked_nil, List.nil_append, Nat.sub_zero, Nat.mod_eq_zero_of_dvd hd, bitsDesc_zero,
      List.append_nil, List.mem_append] at hg
    rcases hg with h | h <;> rw [(List.mem_replicate.1 h).2]

theorem assume_reaches {e : Env} (wf : e.WF) (ha : e.pol.assumeMatchingSize = true) (n : Nat) : ReachesAlignment e n := by
  intro h
  have := (wf.pol_reachable.inv.pa h).2
  rw [ha] at this; simp at this

theorem invokeT_width (e : Env) (wb : Bool) (f : TCallable σ α) (w k : Nat) (aligned : Bool) (pos : Int)
    (st st' : TState (σ × List (TEvent α)) α) (h : invokeT e wb (loggedT f) w aligned k pos st = .ok st') :
    recordOf st' = recordOf st ∨ ∃ ev, recordOf st' = recordOf st ++ [ev] ∧ ∀ a ∈ ev.args, a.length = w := by
  unfold invokeT at h
  match st with
  | .inr x => simp only [Outcome.ok.injEq] at h; subst h; exact Or.inl rfl
  | .inl ((s, log), mem) =>
    simp only at h
    cases hl : loadAll e mem aligned w k pos with
    | ub r => rw [hl] at h; cases h
    | trap => rw [hl] at h; cases h
    | ok cs =>
      rw [hl, Outcome.bind_ok] at h
      have hk := (ForEachStruct.loadAll_ok_length hl).2
      right
      refine ⟨⟨cs, (f.call s cs).2⟩, ?_, hk⟩
      simp only [loggedT] at h
      generalize f.call s cs = c at h
      obtain ⟨s1, r⟩ := c
      cases r with
      | none => simp only [Outcome.ok.injEq] at h; subst h; rfl
      | some r =>
        simp only at h
        split at h
        · cases hs : storeAll e aligned w r pos mem with
          | ok m => rw [hs, Outcome.bind_ok] at h; simp only [Outcome.ok.injEq] at h; subst h; rfl
          | ub r => rw [hs] at h; cases h
          | trap => rw [hs] at h; cases h
        · simp only [Outcome.ok.injEq] at h; subst h; rfl

theorem loadArgs_length (t : TEnv) (mem : List α) (w : Nat) (p1 p2 : Int) (cs : List (List α))
    (h : loadArgs t mem w p1 p2 = .ok cs) : ∀ c ∈ cs, c.length = w := by
  unfold loadArgs at h
  split at h
  · cases h
  · rename_i b1 bs _
    cases h1 : loadIn t mem w b1 p1 with
    | ub r => rw [h1] at h; cases h
    | trap => rw [h1] at h; cases h
    | ok c =>
      rw [h1, Outcome.bind_ok] at h
      cases h2 : loadIns t mem w p2 bs with
      | ub r => rw [h2] at h; cases h
      | trap => rw [h2] at h; cases h
      | ok cs' =>
        rw [h2, Outcome.bind_ok] at h
        simp only [Outcome.ok.injEq] at h
        subst h
        intro x hx
        rcases List.mem_cons.1 hx with rfl | hx
        · exact TransformReduce.loadIn_length _ _ _ _ _ _ h1
        · exact TransformReduce.loadIns_length _ _ _ _ _ _ h2 x hx

/-- Every recorded argument has `w` lanes. -/
def AllWide (w : Nat) (log : List (OpEvent α)) : Prop := ∀ ev ∈ log, ∀ a ∈ ev.args, a.length = w

theorem evalGroup_width (t : TEnv) (op : TOp σ α) (mem : List α) (w : Nat) (p1 p2 : Int) (is : List Nat) (s : σ) (log : List (OpEvent α))
    (r : (σ × List (OpEvent α)) × Option (List (Nat × List α))) (hl : AllWide w log)
    (h : evalGroup t (loggedOp op) mem w p1 p2 is (s, log) = .ok r) : AllWide w r.1.2 := by
  induction is generalizing s log r with
  | nil => simp only [evalGroup, Outcome.ok.injEq] at h; subst h; exact hl
  | cons i is ih =>
    unfold evalGroup at h
    cases hl' : loadArgs t mem w (p1 + ((i * w : Nat) : Int)) (p2 + ((i * w : Nat) : Int)) with
    | ub r => rw [hl'] at h; cases h
    | trap => rw [hl'] at h; cases h
    | ok args =>
      rw [hl', Outcome.bind_ok] at h
      have hw := loadArgs_length _ _ _ _ _ _ hl'
      simp only [loggedOp] at h
      generalize op.call s args = c at h
      obtain ⟨s1, v⟩ := c
      have hnew : ∀ v, AllWide w (log ++ [⟨args, v⟩]) := by
        intro v ev hev
        rcases List.mem_append.1 hev with h | h
        · exact hl ev h
        · rw [List.mem_singleton.1 h]; exact hw
      cases v with
      | none => simp only [Outcome.ok.injEq] at h; subst h; exact hnew none
      | some v =>
        simp only at h
        cases hr : evalGroup t (loggedOp op) mem w p1 p2 is (s1, log ++ [⟨args, some v⟩]) with
        | ok r' =>
          unfold loggedOp at hr
          rw [hr, Outcome.bind_ok] at h
          simp only [Outcome.ok.injEq] at h
          subst h
          exact ih s1 _ r' (hnew _) (by unfold loggedOp; exact hr)
        | ub r => unfold loggedOp at hr; rw [hr] at h; cases h
        | trap => unfold loggedOp at hr; rw [hr] at h; cases h

theorem chunksT_width (t : TEnv) (ord : Nat → List Nat) (op : TOp σ α) (w k : Nat) (aligned : Bool)
    (p1 d p2 : Int) (st st' : TState (σ × List (OpEvent α)) α) (hw : AllWide w (recordOf st))
    (h : chunksT t ord (loggedOp op) w aligned k p1 d p2 st = .ok st') : AllWide w (recordOf st') := by
  unfold chunksT at h
  match st with
  | .inr x => simp only [Outcome.ok.injEq] at h; subst h; exact hw
  | .inl ((s, log), mem) =>
    simp only at h
    cases hl : evalGroup t (loggedOp op) mem w p1 p2 (ord k) (s, log) with
    | ub r => rw [hl] at h; cases h
    | trap => rw [hl] at h; cases h
    | ok r =>
      rw [hl, Outcome.bind_ok] at h
      have hlen := evalGroup_width t op mem w p1 p2 (ord k) s log r hw hl
      obtain ⟨s1, v⟩ := r
      cases v with
      | none => simp only [Outcome.ok.injEq] at h; subst h; exact hlen
      | some rs =>
        simp only at h
        cases hst : storeGroup t aligned w rs d (List.range k) mem with
        | ok m => rw [hst, Outcome.bind_ok] at h; simp only [Outcome.ok.injEq] at h; subst h; exact hlen
        | ub r => rw [hst] at h; cases h
        | trap => rw [hst] at h; cases h

theorem predsThenInc_width (p : CountIf.TPred σ α) (w : Nat) (xs : List (List α)) (hx : ∀ x ∈ xs, x.length = w) (s : σ)
    (log : List (PEvent α)) (hl : ∀ ev ∈ log, ev.arg.length = w) (c : CountIf.Counters) :
    ∀ ev ∈ (CountIf.predsThenInc (loggedP p) xs ((s, log), c)).1.1.2, ev.arg.length = w := by
  induction xs generalizing s log c with
  | nil => exact hl
  | cons x xs ih =>
    unfold CountIf.predsThenInc
    simp only [loggedP]
    generalize p.call s x = r
    obtain ⟨s1, r⟩ := r
    have hnew : ∀ v, ∀ ev ∈ log ++ [(⟨x, v⟩ : PEvent α)], ev.arg.length = w := by
      intro v ev hev
      rcases List.mem_append.1 hev with h | h
      · exact hl ev h
      · rw [List.mem_singleton.1 h]; exact hx x (by simp)
    cases r with
    | none => exact hnew none
    | some k => exact ih (fun y hy => hx y (by simp [hy])) s1 _ (hnew _) _

theorem lambdaT_width (p : CountIf.TPred σ α) (w : Nat) (xs : List (List α)) (hx : ∀ x ∈ xs, x.length = w) (s : σ)
    (log : List (PEvent α)) (hl : ∀ ev ∈ log, ev.arg.length = w) (c : CountIf.Counters) :
    ∀ ev ∈ (CountIf.lambdaT (loggedP p) xs ((s, log), c)).1.1.2, ev.arg.length = w := by
  unfold CountIf.lambdaT
  split
  · rename_i x
    simp only [loggedP]
    generalize p.call s x = r
    obtain ⟨s1, r⟩ := r
    have hnew : ∀ v, ∀ ev ∈ log ++ [(⟨x, v⟩ : PEvent α)], ev.arg.length = w := by
      intro v ev hev
      rcases List.mem_append.1 hev with h | h
      · exact hl ev h
      · rw [List.mem_singleton.1 h]; exact hx x (by simp)
    cases r <;> exact hnew _
  · exact predsThenInc_width p w xs hx s log hl c

namespace TransformReduce
open Eff
variable {C : σ → Nat} {t : TEnv} {ops : ROps σ α β τ} {ld : Loader σ β}

/-- With `assume_matching_size` only loads of the full width are executed. -/
theorem transformReduceL_assume_cost (pr : CostPrims C t ops ld) (wf : t.e.WF) (hce : t.e.constEval = false)
    (ha : t.e.pol.assumeMatchingSize = true) (init : τ) : Cost C 0 (transformReduceL t ops ld init) := by
  intro s s' r h
  unfold transformReduceL at h
  dsimp only at h
  split at h
  · exact Cost.pure init s s' r h
  · split at h
    · cases h
    · rw [hce] at h
      simp only [Bool.false_eq_true, if_false] at h
      have hi := wf.pol_reachable.inv
      have h1 : t.e.pol.prefersAligned = false := by
        cases h : t.e.pol.prefersAligned
        · rfl
        · have := (hi.pa h).2; rw [ha] at this; simp at this
      have h2 : t.e.pol.autoPrologue = false := by
        cases h : t.e.pol.autoPrologue
        · rfl
        · have := hi.ap h; rw [ha] at this; simp at this
      have hp : runPrologue t.e t.n (proE t ops ld) 0 (s, some init) = .ok (0, t.n, s, some init) := by
        simp [runPrologue, useAligned, maybeAnyway, h1, h2]
      rw [hp, Outcome.bind_ok] at h
      refine Cost.bind0 (C := C) (c := 0) (Cost.lift _) (fun sl => ?_) s s' r (show restE t ops ld 0 t.n init s = _ from h)
      rw [if_pos (by simp [ha])]
      refine Cost.bind0 (initAccE_cost pr _ _) fun st => ?_
      refine Cost.bind0 (Cost.whileE (fun p st => ?_) _ _ _) fun st => ?_
      · exact Cost.bind0 (pr.full _ _ _) fun _ => Cost.bind0 (pr.red _ _) fun _ => Cost.pure _
      · unfold finishE
        dsimp only
        split
        · exact pr.red1 _ _
        · rw [if_pos (by simp [ha])]
          exact Cost.bind0 (pr.hredT _) fun _ => pr.red1 _ _

/-- Without a prologue and with a multiple of `size` elements only loads of the full width are executed. -/
theorem transformReduceL_exact_cost (pr : CostPrims C t ops ld) (hce : t.e.constEval = false)
    (hpt : t.e.strictPtr = false) (hs : Spec.StartsAligned t.e) (hd : t.e.size ∣ t.n) (init : τ) :
    Cost C 0 (transformReduceL t ops ld init) := by
  intro s s' r h
  unfold transformReduceL at h
  dsimp only at h
  split at h
  · exact Cost.pure init s s' r h
  · rename_i hn
    split at h
    · cases h
    · rw [hce] at h
      simp only [Bool.false_eq_true, if_false] at h
      have hp : runPrologue t.e t.n (proE t ops ld) 0 (s, some init) = .ok (0, t.n, s, some init) := by
        rcases hs with hs | ⟨h1, h2⟩
        · have hm : misalignedBytes t.e = 0 := Nat.mod_eq_zero_of_dvd hs
          unfold runPrologue
          simp [hm]
        · simp [runPrologue, useAligned, maybeAnyway, h1, h2]
      rw [hp, Outcome.bind_ok] at h
      have hle : t.e.size ≤ t.n := Nat.le_of_dvd (by omega) hd
      have hsub : subPtr t.e (t.n : Int) t.e.size = .ok ((t.n : Int) - t.e.size) := by simp [subPtr, hpt]
      have h' : restE t ops ld 0 t.n init s = .ok (s', r) := h
      unfold restE at h'
      dsimp only at h'
      have hb : ∀ (a : Int) (f : Int → Eff σ τ), (lift (.ok a) >>= f) = f a := fun a f => by
        funext s; rw [Eff.bind_def]; rfl
      rw [hsub, hb, if_pos (by simp; omega)] at h'
      refine Cost.bind0 (C := C) (c := 0) (initAccE_cost pr _ _) (fun st => ?_) s s' r h'
      refine Cost.bind0 (Cost.whileE (fun p st => ?_) _ _ _) fun st => ?_
      · exact Cost.bind0 (pr.full _ _ _) fun _ => Cost.bind0 (pr.red _ _) fun _ => Cost.pure _
      · unfold finishE
        dsimp only
        split
        · exact pr.red1 _ _
        · rw [if_pos (by simp [Nat.mod_eq_zero_of_dvd hd])]
          exact Cost.bind0 (pr.hredT _) fun _ => pr.red1 _ _

end TransformReduce
end Vir
