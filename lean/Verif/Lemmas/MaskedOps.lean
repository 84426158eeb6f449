import Verif.Model.MaskedOps
import Verif.Spec.MaskedOps
import Verif.Lemmas.ProgOps
import Verif.Props.LaneProg

/-! # Masked programs as callables, helper lemmas -/

namespace Vir.LaneProg
open Spec Spec.OneLane

variable {α : Type}

theorem value_uniform {i j : Nat} {xs : List α} {e : Ex α} {v : α} (he : ExUniform e) (h : Value i xs e v) : Value j xs e v := by
  induction h with
  | var h => exact .var h
  | gen h => exact .gen (by rw [he j i]; exact h)
  | un _ hf ih => exact .un (ih he) hf
  | bin _ _ hf iha ihb => exact .bin (iha he.1) (ihb he.2) hf

theorem cond_uniform {i j : Nat} {l : Vars α} {m : Mk α} {b : Bool} (hm : MkUniform m) (h : Cond i l m b) : Cond j l m b := by
  induction h with
  | mvar h => exact .mvar h
  | cmp ha hb => exact .cmp (value_uniform hm.1 ha) (value_uniform hm.2 hb)
  | and _ _ iha ihb => exact .and (iha hm.1) (ihb hm.2)
  | or _ _ iha ihb => exact .or (iha hm.1) (ihb hm.2)
  | not _ ih => exact .not (ih hm)

theorem run_uniform {I : Prop} {i j : Nat} {p : Stmt α} {l l' : Vars α} (hp : Uniform p) (h : Run I i p l l') : Run I j p l l' := by
  induction h with
  | skip => exact .skip
  | seq _ _ iha ihb => exact .seq (iha hp.1) (ihb hp.2)
  | assign h => exact .assign (value_uniform hp h)
  | compound h h1 h2 => exact .compound (value_uniform hp h) h1 h2
  | where_true h h1 => exact .where_true (cond_uniform hp.1 h) (value_uniform hp.2 h1)
  | where_false h h1 => exact .where_false (cond_uniform hp.1 h) (value_uniform hp.2 h1)
  | whereCompound_true h h1 h2 h3 => exact .whereCompound_true (cond_uniform hp.1 h) (value_uniform hp.2 h1) h2 h3
  | whereCompound_false h h1 => exact .whereCompound_false (cond_uniform hp.1 h) (value_uniform hp.2 h1)
  | setMask h => exact .setMask (cond_uniform hp h)
  | whereMask_true h h1 => exact .whereMask_true (cond_uniform hp.1 h) (cond_uniform hp.2 h1)
  | whereMask_false h h1 => exact .whereMask_false (cond_uniform hp.1 h) (cond_uniform hp.2 h1)
  | again h h1 _ _ ih1 ih2 => exact .again (cond_uniform hp.1 h) h1 (ih1 hp.2) (ih2 hp)
  | leave h => exact .leave (cond_uniform hp.1 h)

theorem begin_lane {w : Nat} {args : List (List α)} {zs : List α} {nm i : Nat} (hi : i < w) :
    lane ⟨args ++ zs.map (List.replicate w ·), List.replicate nm (List.replicate w false)⟩ i =
      (args.filterMap (·[i]?) ++ zs, List.replicate nm false) := by
  unfold lane
  rw [List.filterMap_append, List.filterMap_map]
  have h1 : zs.filterMap ((·[i]?) ∘ (List.replicate w ·)) = zs := by
    have : ((·[i]?) ∘ (List.replicate w ·) : α → Option α) = some := by
      funext x
      simp only [Function.comp_apply, List.getElem?_replicate, if_pos hi]
    rw [this]
    exact List.filterMap_some
  have h2 : (List.replicate nm (List.replicate w false)).filterMap (·[i]?) = List.replicate nm false := by
    induction nm with
    | zero => rfl
    | succ k ih =>
      rw [List.replicate_succ, List.filterMap_cons_some (b := false) (by rw [List.getElem?_replicate, if_pos hi]), ih, List.replicate_succ]
  rw [h1, h2]

theorem begin_shape {m w : Nat} {args : List (List α)} (hm : args.length = m) (ha : ∀ a ∈ args, a.length = w) (zs : List α) (nm : Nat) :
    Shape (m + zs.length) nm w ⟨args ++ zs.map (List.replicate w ·), List.replicate nm (List.replicate w false)⟩ := by
  refine ⟨by simp [hm], fun x hx => ?_, by simp, fun b hb => by rw [List.eq_of_mem_replicate hb]; simp⟩
  rcases List.mem_append.1 hx with h | h
  · exact ha x h
  · obtain ⟨z, _, rfl⟩ := List.mem_map.1 h
    simp

theorem lane_var {nv nm w i : Nat} {s : State α} (hs : Shape nv nm w s) (hi : i < w) (k : Nat) : (lane s i).1[k]? = (s.vars[k]?).bind (·[i]?) := by
  unfold lane
  simp only []
  rw [(SimdProg.filterMap_lane (fun x hx => by rw [hs.var x hx]; exact hi) k).1]

theorem lane_mask {nv nm w i : Nat} {s : State α} (hs : Shape nv nm w s) (hi : i < w) (k : Nat) : (lane s i).2[k]? = (s.masks[k]?).bind (·[i]?) := by
  unfold lane
  simp only []
  rw [(SimdProg.filterMap_lane (fun x hx => by rw [hs.mask x hx]; exact hi) k).1]

variable [Inhabited α] {V M : Nat → Prop} {zs : List α} {m nm out : Nat} {p : Stmt α}

instance : Inhabited (Vars α) := ⟨([], [])⟩

/-- A masked program as operation: with enough fuel it has the value of every lane. -/
theorem laneOp_value (hp : IsMasked (m + zs.length) nm V M p) (ht : LoopsTotal p) (hout : out < m + zs.length) (hV : ¬ V out) (w : Nat)
    (args : List (List α)) (hl : args.length = m) (ha : ∀ a ∈ args, a.length = w ∧ ∀ x ∈ a, True)
    (hd : ∀ i < w, ∃ v, Result zs nm out p (args.filterMap (·[i]?)) v) :
    ∃ r, (∃ N, ∀ n, N ≤ n → laneOp zs nm out p n w args = .ok r) ∧ r.length = w ∧
      ∀ (i : Nat) (v : α), r[i]? = some v → Result zs nm out p (args.filterMap (·[i]?)) v := by
  have hs := begin_shape hl (fun a h => (ha a h).1) zs nm
  obtain ⟨q, hq⟩ := SimdProg.choose_below (P := fun i (l : Vars α) => Run False 0 p (args.filterMap (·[i]?) ++ zs, List.replicate nm false) l) fun i hi => by
    obtain ⟨v, l, h, _⟩ := hd i hi
    exact ⟨l, h⟩
  obtain ⟨s', N, hs', hl', hrun⟩ := lanes_complete p hp.masked ht hp.uses (fun _ h => h.elim) _ hs q fun i hi => by
    rw [begin_lane hi]
    exact run_uniform hp.uniform (hq i hi)
  have hk : out < s'.vars.length := by rw [hs'.vars]; exact hout
  have hlen := hs'.var _ (List.getElem_mem hk)
  refine ⟨s'.vars[out], ⟨N, fun n hn => ?_⟩, hlen, fun i v hv => ?_⟩
  · unfold laneOp
    rw [hrun n hn, Outcome.bind_ok]
    unfold SimdProg.get
    rw [List.getElem?_eq_getElem hk]
  · have hi : i < w := by
      rw [← hlen]
      exact (List.getElem?_eq_some_iff.1 hv).1
    refine ⟨q i, hq i hi, ?_⟩
    rw [← (hl' i hi).var out hV, lane_var hs' hi, List.getElem?_eq_getElem hk]
    exact hv

/-- Whatever a masked program as operation returns, these are the results of the lanes. -/
theorem laneOp_sound (hp : IsMasked (m + zs.length) nm V M p) (hV : ¬ V out) (fuel w : Nat) (args : List (List α)) (r : List α)
    (hl : args.length = m) (ha : ∀ a ∈ args, a.length = w ∧ ∀ x ∈ a, True) (hr : laneOp zs nm out p fuel w args = .ok r) :
    r.length = w ∧ ∀ (i : Nat) (v : α), r[i]? = some v → Result zs nm out p (args.filterMap (·[i]?)) v := by
  have hs := begin_shape hl (fun a h => (ha a h).1) zs nm
  unfold laneOp at hr
  obtain ⟨s', hrun, hr⟩ := bind_iff.1 hr
  have hs' := (lanes_sound p hp.uses _ s' hs fuel hrun).1
  unfold SimdProg.get at hr
  split at hr
  · rename_i x hx
    cases hr
    have hlen := hs'.var _ (List.mem_of_getElem? hx)
    refine ⟨hlen, fun i v hv => ?_⟩
    have hi : i < w := by
      rw [← hlen]
      exact (List.getElem?_eq_some_iff.1 hv).1
    obtain ⟨l, h1, h2⟩ := lanes_masked p hp.masked hp.uses _ s' hs fuel hrun hi
    rw [begin_lane hi] at h1
    refine ⟨l, run_uniform hp.uniform h1, ?_⟩
    rw [← h2.var out hV, lane_var hs' hi, hx]
    exact hv
  · cases hr

omit [Inhabited α] in
theorem begin_one {w i : Nat} {x : List α} (hx : x.length = w) (hi : i < w) (zs : List α) (nm : Nat) :
    lane ⟨x :: zs.map (List.replicate w ·), List.replicate nm (List.replicate w false)⟩ i = (x[i] :: zs, List.replicate nm false) := by
  have := begin_lane (args := [x]) (zs := zs) (nm := nm) hi
  simp only [List.filterMap_cons, List.getElem?_eq_getElem (show i < x.length by omega), List.filterMap_nil, List.cons_append,
    List.nil_append] at this
  exact this

/-- With enough fuel the program tests every lane of its argument. -/
theorem lanePred_value (hp : IsMasked (1 + zs.length) nm V M p) (ht : LoopsTotal p) (hout : out < nm) (hM : ¬ M out) (q : α → Bool) (x : List α)
    (hd : ∀ y ∈ x, Says zs nm out p y (q y)) : ∃ N, ∀ n, N ≤ n → lanePred zs nm out p n x.length x = .ok (x.map q) := by
  have hs : Shape (1 + zs.length) nm x.length ⟨x :: zs.map (List.replicate x.length ·), List.replicate nm (List.replicate x.length false)⟩ :=
    begin_shape (args := [x]) rfl (fun a ha => by rw [List.mem_singleton.1 ha]) zs nm
  obtain ⟨f, hf⟩ := SimdProg.choose_below (w := x.length) (P := fun i (l : Vars α) =>
    ∃ y, x[i]? = some y ∧ Run False 0 p (y :: zs, List.replicate nm false) l ∧ l.2[out]? = some (q y)) fun i hi => by
      obtain ⟨l, h1, h2⟩ := hd x[i] (List.getElem_mem hi)
      exact ⟨l, x[i], List.getElem?_eq_getElem hi, h1, h2⟩
  obtain ⟨s', N, hs', hl', hrun⟩ := lanes_complete p hp.masked ht hp.uses (fun _ h => h.elim) _ hs f fun i hi => by
    obtain ⟨y, h1, h2, _⟩ := hf i hi
    rw [begin_one rfl hi]
    rw [List.getElem?_eq_getElem hi] at h1
    cases h1
    exact run_uniform hp.uniform h2
  have hk : out < s'.masks.length := by rw [hs'.masks]; exact hout
  refine ⟨N, fun n hn => ?_⟩
  unfold lanePred
  rw [hrun n hn, Outcome.bind_ok]
  unfold SimdProg.get
  rw [List.getElem?_eq_getElem hk]
  refine congrArg Outcome.ok ?_
  have hlen : s'.masks[out].length = x.length := hs'.mask _ (List.getElem_mem hk)
  apply List.ext_getElem (by simp [hlen])
  intro i g1 g2
  have hi : i < x.length := by omega
  obtain ⟨y, h1, _, h3⟩ := hf i hi
  rw [← (hl' i hi).mask out hM, lane_mask hs' hi, List.getElem?_eq_getElem hk, Option.bind_some, List.getElem?_eq_getElem g1] at h3
  rw [List.getElem?_eq_getElem hi] at h1
  rw [List.getElem_map, Option.some.inj h1]
  exact Option.some.inj h3

/-- Whatever mask a masked program returns, these are the answers of the lanes. -/
theorem lanePred_sound (hp : IsMasked (1 + zs.length) nm V M p) (hM : ¬ M out) (fuel : Nat) (x : List α) {k : List Bool}
    (h : lanePred zs nm out p fuel x.length x = .ok k) : Answers (fun y b => Says zs nm out p y b) x k := by
  have hs : Shape (1 + zs.length) nm x.length ⟨x :: zs.map (List.replicate x.length ·), List.replicate nm (List.replicate x.length false)⟩ :=
    begin_shape (args := [x]) rfl (fun a ha => by rw [List.mem_singleton.1 ha]) zs nm
  unfold lanePred at h
  obtain ⟨s', hrun, h⟩ := bind_iff.1 h
  have hs' := (lanes_sound p hp.uses _ s' hs fuel hrun).1
  unfold SimdProg.get at h
  split at h
  · rename_i k' hk
    cases h
    have hlen := hs'.mask _ (List.mem_of_getElem? hk)
    refine ⟨hlen, fun i y b hy hb => ?_⟩
    obtain ⟨hi, hy⟩ := List.getElem?_eq_some_iff.1 hy
    obtain ⟨l, h1, h2⟩ := lanes_masked p hp.masked hp.uses _ s' hs fuel hrun hi
    rw [begin_one rfl hi, hy] at h1
    refine ⟨l, run_uniform hp.uniform h1, ?_⟩
    rw [← h2.mask out hM, lane_mask hs' hi, hk]
    exact hb
  · cases h

end Vir.LaneProg
