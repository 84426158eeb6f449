import Verif.Lemmas.CountIfStruct
import Verif.Lemmas.ThrowingStruct
import Verif.Props.Throwing
import Verif.Spec.CountIfStructEffects

/-! # Lemmas about `count_if` with effects on arrays of structs -/

namespace Vir.CountIfStruct
open Vir.ForEach Vir.Spec Vir.CountIf Vir.ForEachStruct

variable {σ α : Type} {c : Nat} {F : Family} {e : Env}

/-- The predicate, as a function of the structs in memory order. -/
def onStructsTP (F : Family) (p : STPred σ α c) : TPred σ (Vector α c) where
  call s cs := p.call s (members (reorder (F.env cs.length) cs))
  shape s cs r h := by
    have := members_shape (reorder (F.env cs.length) cs)
    rw [reorder_length] at this
    exact p.shape s _ _ r this.1 this.2 h

/-- The recorded invocation, with the structs in the order of the lanes. -/
def inLanesP (F : Family) (ev : PEvent (Vector α c)) : PEvent (Vector α c) := ⟨reorder (F.env ev.arg.length) ev.arg, ev.result⟩

/-- The state of the predicate with its record. -/
def simdLog (F : Family) (s : σ × List (PEvent (Vector α c))) : σ × List (PEvent (List α)) :=
  (s.1, s.2.map fun ev => simdizedP (inLanesP F ev))

theorem logged_call (p : STPred σ α c) (s : σ × List (PEvent (Vector α c))) (x : List (Vector α c)) :
    (loggedSP p).call (simdLog F s) (members (reorder (F.env x.length) x)) =
      (simdLog F ((loggedP (onStructsTP F p)).call s x).1, ((loggedP (onStructsTP F p)).call s x).2) := by
  simp [loggedSP, loggedP, onStructsTP, simdLog, simdizedP, inLanesP]

theorem preds_logged (p : STPred σ α c) (args : List (List (Vector α c))) (s : σ × List (PEvent (Vector α c))) (n : Counters) :
    predsThenInc (loggedSP p) (args.map fun x => members (reorder (F.env x.length) x)) (simdLog F s, n) =
      (((simdLog F (CountIf.predsThenInc (loggedP (onStructsTP F p)) args (s, n)).1.1),
        (CountIf.predsThenInc (loggedP (onStructsTP F p)) args (s, n)).1.2),
        (CountIf.predsThenInc (loggedP (onStructsTP F p)) args (s, n)).2) := by
  induction args generalizing s n with
  | nil => rfl
  | cons x args ih =>
    rw [List.map_cons, predsThenInc, CountIf.predsThenInc]
    dsimp only
    rw [logged_call]
    cases (loggedP (onStructsTP F p)).call s x with
    | mk s' r =>
      cases r with
      | none => rfl
      | some k => exact ih s' _

theorem lambda_logged (hc : 0 < c) (p : STPred σ α c) (args : List (List (Vector α c))) (s : σ × List (PEvent (Vector α c))) (n : Counters) :
    lambdaT (loggedSP p) (args.map fun x => members (reorder (F.env x.length) x)) (simdLog F s, n) =
      (((simdLog F (CountIf.lambdaT (loggedP (onStructsTP F p)) args (s, n)).1.1),
        (CountIf.lambdaT (loggedP (onStructsTP F p)) args (s, n)).1.2),
        (CountIf.lambdaT (loggedP (onStructsTP F p)) args (s, n)).2) := by
  match args with
  | [] => exact preds_logged p [] s n
  | [x] =>
    rw [List.map_cons, List.map_nil, lambdaT, CountIf.lambdaT]
    dsimp only
    rw [logged_call]
    cases (loggedP (onStructsTP F p)).call s x with
    | mk s' r =>
      cases r with
      | none => rfl
      | some k =>
        dsimp only
        rw [width_members hc, reorder_length]
  | x :: y :: r => exact preds_logged p (x :: y :: r) s n

/-- The states of the two algorithms. -/
def simdState (F : Family) (st : ((σ × List (PEvent (Vector α c))) × Counters) × List (Vector α c)) :
    ((σ × List (PEvent (List α))) × Counters) × List α := ((simdLog F st.1.1, st.1.2), flat st.2)

theorem invSim_count {zero : α} {junk : Nat → α} (hF : F.WF c) (ha : AlwaysAligned e) (W : Nat) (p : STPred σ α c) :
    InvSim W (Sum.map (simdState F) (simdState F)) (ForEach.invokeT e false (CountIf.callableT (loggedP (onStructsTP F p))))
      (ForEachStruct.invokeT F zero junk false (callableT (loggedSP p))) := by
  intro w aligned k pos st hw _
  cases st with
  | inr x => rfl
  | inl x =>
    obtain ⟨⟨s, n⟩, xs⟩ := x
    simp only [ForEach.invokeT, ForEachStruct.invokeT, simdState, Sum.map_inl]
    refine Sim.bind' (sim_loadAll hF ha xs aligned hw k pos) fun cs hcs => ?_
    obtain ⟨_, hlen⟩ := loadAll_ok_length hcs
    have hmap : (cs.map fun x => members (reorder (F.env w) x)) = cs.map fun x => members (reorder (F.env x.length) x) :=
      List.map_congr_left fun x hx => by rw [hlen x hx]
    rw [hmap]
    simp only [callableT, CountIf.callableT, lambda_logged hF.pos]
    cases (CountIf.lambdaT (loggedP (onStructsTP F p)) cs (s, n)).2 <;> simp [Sim, simdState]

/-- Forget the record. -/
def forget {β : Type} (st : (σ × List (TEvent β)) × List β) : σ × List β := (st.1.1, st.2)

/-- Recording the invocations does not change what the algorithm does. -/
theorem forEachT_unlogged (hs : 0 < e.size) {β : Type} (wb : Bool) (f : TCallable σ β) (s : σ) (xs : List β) :
    Sim (Sum.map forget forget)
      (ForEach.forEachT e wb (loggedT f) (s, []) xs) (ForEach.forEachT e wb f s xs) := by
  unfold ForEach.forEachT
  refine sim_forEach (φ := Sum.map forget forget)
    (fun w aligned k pos st hw _ => ?_) hs xs.length (Sum.inl ((s, []), xs))
  cases st with
  | inr x => rfl
  | inl x =>
    obtain ⟨⟨s, l⟩, xs⟩ := x
    simp only [ForEach.invokeT, Sum.map_inl, forget]
    cases ForEach.loadAll e xs aligned w k pos with
    | ub r => trivial
    | trap => trivial
    | ok cs =>
      simp only [Outcome.bind_ok, loggedT]
      cases f.call s cs with
      | mk s' r =>
        cases r with
        | none => simp [Sim, forget]
        | some r =>
          cases wb with
          | false => simp [Sim, forget]
          | true =>
            simp only [if_true]
            cases ForEach.storeAll e aligned w r pos xs <;> simp [Sim, forget]

/-- `for_each` with the lambda is defined. -/
theorem forEach_lambda_ok {A : Nat} (hE : StructRange e A) (hce : e.constEval = false) (hpt : e.strictPtr = false) {β : Type}
    (f : TCallable σ β) (s : σ) (xs : List β) (hf : e.Fits xs.length) (ha : e.pol.assumeMatchingSize = true → e.size ∣ xs.length) :
    ∃ st, ForEach.forEachT e false f s xs = .ok st := by
  have hsim := forEachT_unlogged hE.size_pos false f s xs
  rcases forEach_throwing hE.wf hce hpt false f s xs hf (hE.reaches _) ha with ⟨s', log, h1, _⟩ | ⟨s', log, last, h1, _⟩
  · exact ⟨_, hsim.of_ok h1⟩
  · exact ⟨_, hsim.of_ok h1⟩

/-- What `count_if` does with the array of structs. -/
theorem countIfStructT_eq {A : Nat} {zero : α} {junk : Nat → α} (hE : StructRange e A) (hF : F.WF c) (hce : e.constEval = false)
    (hpt : e.strictPtr = false) (hred : List (Outcome Int) → Outcome Int) (p : STPred σ α c) (s : σ) (xs : List (Vector α c))
    (hf : e.Fits xs.length) (ha : e.pol.assumeMatchingSize = true → e.size ∣ xs.length) :
    countIfStructT e F zero junk hred (loggedSP p) (s, []) (flat xs) =
      (countIfT e hred (loggedP (onStructsTP F p)) (s, []) xs >>= fun r => .ok (simdLog F r.1, r.2)) := by
  obtain ⟨st, hst⟩ := forEach_lambda_ok hE hce hpt (CountIf.callableT (loggedP (onStructsTP F p)))
    ((s, []), .ok (0, List.replicate e.size 0)) xs hf ha
  have hsim := sim_forEach (φ := Sum.map (simdState F) (simdState F)) (invSim_count (zero := zero) (junk := junk) hF hE.aligned e.size p)
    hE.size_pos xs.length (Sum.inl (((s, []), .ok (0, List.replicate e.size 0)), xs))
  unfold ForEach.forEachT at hst
  unfold countIfStructT countIfT ForEachStruct.forEachT ForEach.forEachT
  rw [flat_length, Nat.mul_div_cancel _ hF.pos]
  have h2 := hsim.of_ok hst
  simp only [Sum.map_inl, simdState, simdLog, List.map_nil] at h2
  rw [h2, hst]
  simp only [Outcome.bind_ok]
  cases st with
  | inr x =>
    obtain ⟨⟨s', n⟩, m⟩ := x
    cases n <;> rfl
  | inl x =>
    obtain ⟨⟨s', n⟩, m⟩ := x
    cases n with
    | ub r => rfl
    | trap => rfl
    | ok n =>
      obtain ⟨count, countv⟩ := n
      simp only [Sum.map_inl, simdState, Outcome.bind_ok, Outcome.bind_assoc]

/-- Only the widths that occur matter. -/
theorem countIfStructT_tame {A : Nat} {zero : α} {junk : Nat → α} (hE : StructRange e A) (hF : F.WF c) (hce : e.constEval = false)
    (hpt : e.strictPtr = false) (hred : List (Outcome Int) → Outcome Int) (p : STPred σ α c) (s : σ) (xs : List (Vector α c))
    (hf : e.Fits xs.length) (ha : e.pol.assumeMatchingSize = true → e.size ∣ xs.length) :
    countIfStructT e F zero junk hred (loggedSP p) (s, []) (flat xs) =
      countIfStructT e (tame F e.size) zero junk hred (loggedSP p) (s, []) (flat xs) := by
  obtain ⟨st, hst⟩ := forEach_lambda_ok hE hce hpt (CountIf.callableT (loggedP (onStructsTP (tame F e.size) p)))
    ((s, []), .ok (0, List.replicate e.size 0)) xs hf ha
  have hsim := sim_forEach (φ := Sum.map (simdState (tame F e.size)) (simdState (tame F e.size)))
    (invSim_count (zero := zero) (junk := junk) (tame_wf hF e.size) hE.aligned e.size p)
    hE.size_pos xs.length (Sum.inl (((s, []), .ok (0, List.replicate e.size 0)), xs))
  unfold ForEach.forEachT at hst
  have h2 := hsim.of_ok hst
  simp only [Sum.map_inl, simdState, simdLog, List.map_nil] at h2
  have h3 : ForEachStruct.forEachT e (tame F e.size) zero junk false (callableT (loggedSP p)) ((s, []), .ok (0, List.replicate e.size 0))
      (flat xs) = .ok (Sum.map (simdState (tame F e.size)) (simdState (tame F e.size)) st) := by
    unfold ForEachStruct.forEachT
    rw [flat_length, Nat.mul_div_cancel _ hF.pos]
    exact h2
  have h4 := (forEachT_tame hE.size_pos F zero junk false (callableT (loggedSP p)) ((s, []), .ok (0, List.replicate e.size 0))
    (flat xs)).of_ok h3
  unfold countIfStructT
  rw [h3, h4]
  rfl

theorem trace_simd (p : STPred σ α c) (log : List (PEvent (Vector α c))) (s s' : σ) (h : TraceP (onStructsTP F p) s log s') :
    TraceSP p s ((log.map (inLanesP F)).map simdizedP) s' := by
  induction log generalizing s with
  | nil => exact h
  | cons ev log ih => exact ⟨h.1, ih _ h.2⟩

theorem seen_inLanes (hF : F.WF c) (log : List (PEvent (Vector α c))) : (seenP (log.map (inLanesP F))).Perm (seenP log) := by
  unfold seenP
  induction log with
  | nil => simp
  | cons ev log ih =>
    simp only [List.map_cons, List.flatten_cons] at ih ⊢
    exact (reorder_perm (hF.width _)).append ih

theorem inLanesP_ordered (ho : ∀ w, 0 < w → ¬ Simdize.Unordered (F.env w)) (ev : PEvent (Vector α c)) : inLanesP F ev = ev := by
  obtain ⟨x, r⟩ := ev
  unfold inLanesP
  cases x with
  | nil => rw [show reorder (F.env ([] : List (Vector α c)).length) ([] : List (Vector α c)) = [] from
      List.eq_nil_of_length_eq_zero (by simp)]
  | cons a x => rw [reorder_ordered (ho _ (by simp))]

theorem trues_inLanes (log : List (PEvent (Vector α c))) : truesP (log.map (inLanesP F)) = truesP log := by
  simp [truesP, inLanesP, Function.comp_def]

end Vir.CountIfStruct
