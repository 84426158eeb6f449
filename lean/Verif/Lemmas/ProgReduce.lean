import Verif.Model.ProgReduce
import Verif.Props.PartialOps

/-! # Operations that may be undefined as `transform_op`, helper lemmas -/

namespace Vir.TransformReduce
open Spec ForEach Transform

variable {β : Type} {R : REnv β (Outcome β) (Outcome β)} {mem : List β}

/-- The widths of the simds `transform_op` gets, in the order of the elements. -/
def widths (R : REnv β (Outcome β) (Outcome β)) : List Nat := proWidths R.e R.n ++ mainWidths R.e R.n

/-- The result is a generalized sum of what `transform_op` returns for the simds. -/
theorem sum_blocks {f : Outcome β → Outcome β → Outcome β} (hrB : R.rB = f) (hrT : R.rT = f) (hc : R.cvt = id) (ins : InputsOk R mem)
    (wf : R.e.WF) (hce : R.e.constEval = false) (hpt : R.e.strictPtr = false) (hf : R.e.Fits R.n) (hr : ReachesAlignment R.e R.n)
    (he : ¬ EndsAtFirstAligned R.e R.n) (ha : R.e.pol.assumeMatchingSize = true → R.e.size ∣ R.n) (hT : HReduce f R.hredT)
    (hB : HReduce f R.hredB) (init : β) : (widths R).sum = R.n ∧ ∃ v, transformReduce R mem (.ok init) = .ok v ∧
    GSum f (.ok init :: outs R.trans R.ins mem 0 (widths R)) v := by
  have hp := (reaches_iff wf).1 hr
  rw [ends_iff wf] at he
  obtain ⟨v, ys, h1, h2, h3⟩ := transformReduce_gsum ins wf hce hf (by omega) (by simp [hpt]) ha
    (by rw [hrT]; exact hT) (fun _ => by rw [hrB]; exact hB) (.ok init)
  have hs := widths_sum R.e R.n hp
  refine ⟨by unfold widths; rw [List.sum_append, hs], v, h1, ?_⟩
  have hom : ∀ a b, R.cvt (R.rB a b) = R.rT (R.cvt a) (R.cvt b) := by intro a b; rw [hc, hrB, hrT]; rfl
  have := h2.subst hom (pre := [.ok init]) (post := vals R mem (proWidths R.e R.n).sum (mainWidths R.e R.n)) (v := v) (by simpa using h3)
  rw [hrT] at this
  unfold widths
  rw [outs_append]
  unfold vals at this
  rw [hc] at this
  simpa using this

theorem gsum_all_ok {f : β → β → Outcome β} {xs : List (Outcome β)} {v : Outcome β} (h : GSum (strict2 f) xs v) :
    ∀ w, v = .ok w → ∀ x ∈ xs, ∃ y, x = .ok y := by
  induction h with
  | single x =>
    rintro w rfl x hx
    exact ⟨w, List.mem_singleton.1 hx⟩
  | @node xs ys a b _ _ iha ihb =>
    intro w hw x hx
    unfold strict2 at hw
    cases a with
    | ub u => cases hw
    | trap => cases hw
    | ok a =>
      cases b with
      | ub u => cases hw
      | trap => cases hw
      | ok b =>
        rcases List.mem_append.1 hx with hx | hx
        · exact iha a rfl x hx
        · exact ihb b rfl x hx
  | perm hp _ ih =>
    intro w hw x hx
    exact ih w hw x (hp.mem_iff.2 hx)

/-- The simds of width `w` that start at index `p`. -/
def block (R : REnv β (Outcome β) (Outcome β)) (mem : List β) (p w : Nat) : List (List β) :=
  R.ins.map fun a => slice mem (a + p) w

theorem block_lane {p w i : Nat} (hi : i < w) : (block R mem p w).filterMap (·[i]?) = inputsAt R mem (p + i) := by
  unfold block inputsAt
  rw [List.filterMap_map]
  apply filterMap_congr'
  intro a _
  simp only [Function.comp_apply, slice_get, hi, if_true, Nat.add_assoc]

theorem block_len (ok : InputsOk R mem) {p w : Nat} (h : p + w ≤ R.n) : ∀ a ∈ block R mem p w, a.length = w := by
  intro x hx
  obtain ⟨a, ha, rfl⟩ := List.mem_map.1 hx
  have := ok.ins_le a ha
  exact slice_length _ _ _ (by omega)

theorem block_head (ok : InputsOk R mem) {p w : Nat} (h : p + w ≤ R.n) : ((block R mem p w).headD []).length = w := by
  have hl := block_len ok h
  have hne : block R mem p w ≠ [] := by
    unfold block
    simpa using ok.ins_ne
  cases hb : block R mem p w with
  | nil => exact absurd hb hne
  | cons a as => rw [hb] at hl; exact hl a (by simp)

/-- If the operation is defined on every block its results are, put together, `ys`. -/
theorem outs_joint (ok : InputsOk R mem) {op : POp β} {ys : List β} (hl : ys.length = R.n)
    (h : ∀ p w, p + w ≤ R.n → op w (block R mem p w) = .ok ((ys.drop p).take w)) : ∀ (ws : List Nat) (p : Nat), p + ws.sum ≤ R.n →
      outs (joint op) R.ins mem p ws = ((ys.drop p).take ws.sum).map .ok
  | [], p, _ => by simp [outs]
  | w :: ws, p, hw => by
    simp only [List.sum_cons] at hw ⊢
    unfold outs
    rw [outs_joint ok hl h ws (p + w) (by omega)]
    have hb := block_head (w := w) (p := p) ok (by omega)
    have : (joint op).call (R.ins.map fun a => slice mem (a + p) w) = ((ys.drop p).take w).map .ok := by
      change lanes ((block R mem p w).headD []).length (op ((block R mem p w).headD []).length (block R mem p w)) = _
      rw [hb, h p w (by omega)]
      simp only [lanes]
      rw [if_pos (by simp; omega)]
    rw [this, ← List.map_append, List.take_add, List.drop_drop]

/-- Results that are all defined come from defined invocations. -/
theorem joint_ok (ok : InputsOk R mem) {op : POp β} {Q : List β → β → Prop}
    (h : ∀ p w r, p + w ≤ R.n → op w (block R mem p w) = .ok r → ∀ (i : Nat) (v : β), r[i]? = some v → Q (inputsAt R mem (p + i)) v) :
    ∀ (ws : List Nat) (p : Nat), p + ws.sum ≤ R.n → (∀ x ∈ outs (joint op) R.ins mem p ws, ∃ y, x = .ok y) →
      ∃ ys : List β, outs (joint op) R.ins mem p ws = ys.map .ok ∧ ys.length = ws.sum ∧
        ∀ (i : Nat) (v : β), ys[i]? = some v → Q (inputsAt R mem (p + i)) v
  | [], p, _, _ => ⟨[], rfl, rfl, by simp⟩
  | w :: ws, p, hw, hok => by
    simp only [List.sum_cons] at hw
    have hb := block_head (w := w) (p := p) ok (by omega)
    have hcall : (joint op).call (R.ins.map fun a => slice mem (a + p) w) = lanes w (op w (block R mem p w)) := by
      change lanes ((block R mem p w).headD []).length (op ((block R mem p w).headD []).length (block R mem p w)) = _
      rw [hb]
    unfold outs at hok ⊢
    obtain ⟨zs, h1, h2, h3⟩ := joint_ok ok h ws (p + w) (by omega) fun x hx => hok x (List.mem_append.2 (Or.inr hx))
    have hhead := fun x hx => hok x (List.mem_append.2 (Or.inl hx))
    have key : ∃ r : List β, (joint op).call (R.ins.map fun a => slice mem (a + p) w) = r.map .ok ∧ r.length = w ∧
        ∀ (i : Nat) (v : β), r[i]? = some v → Q (inputsAt R mem (p + i)) v := by
      rw [hcall] at hhead ⊢
      by_cases hw0 : w = 0
      · subst hw0
        exact ⟨[], by simpa using lanes_length 0 (op 0 (block R mem p 0)), rfl, by simp⟩
      · cases hop : op w (block R mem p w) with
        | ok r =>
          rw [hop] at hhead
          simp only [lanes] at hhead ⊢
          by_cases hr : r.length = w
          · exact ⟨r, by rw [if_pos hr], hr, h p w r (by omega) hop⟩
          · rw [if_neg hr] at hhead
            obtain ⟨y, hy⟩ := hhead (.ub .staticAssert) (List.mem_replicate.2 ⟨hw0, rfl⟩)
            cases hy
        | ub u =>
          rw [hop] at hhead
          obtain ⟨y, hy⟩ := hhead (.ub u) (List.mem_replicate.2 ⟨hw0, rfl⟩)
          cases hy
        | trap =>
          rw [hop] at hhead
          obtain ⟨y, hy⟩ := hhead .trap (List.mem_replicate.2 ⟨hw0, rfl⟩)
          cases hy
    obtain ⟨r, k1, k2, k3⟩ := key
    refine ⟨r ++ zs, by rw [k1, h1, List.map_append], by simp [k2, h2], fun i v hi => ?_⟩
    by_cases hiw : i < w
    · rw [List.getElem?_append_left (by omega)] at hi
      exact k3 i v hi
    · rw [List.getElem?_append_right (by omega), k2] at hi
      have := h3 _ v hi
      rwa [show p + w + (i - w) = p + i by omega] at this

end Vir.TransformReduce
