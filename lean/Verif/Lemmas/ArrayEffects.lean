import Verif.Lemmas.ReduceArrays
import Verif.Spec.ArrayEffects

/-! # Lemmas for C72: effects on arrays whose loads permute the lanes -/

namespace Vir
open Spec ForEach TransformReduce TransformArrays Simdize Transform ForEachStruct

variable {σ α β τ γ : Type}

namespace TransformReduce
open Eff

/-- After the elements before `p` have been passed to `transform_op`; `u` of them are still to be combined. -/
def LogAtS (size m n : Nat) (S : List (REvent α β τ) → Nat → Prop) (p u : Nat) (s : σ × List (REvent α β τ)) : Prop :=
  p ≤ n ∧ (∀ ev ∈ s.2, ev.threw = false) ∧ (∀ ev ∈ s.2, ShapeOk size m ev) ∧ combined s.2 + u = p ∧ S s.2 p

/-- After an exception. -/
def LogEndS (size m n : Nat) (S : List (REvent α β τ) → Nat → Prop) (s : σ × List (REvent α β τ)) : Prop :=
  ∃ log last, s.2 = log ++ [last] ∧ (∀ ev ∈ log, ev.threw = false) ∧ last.threw = true ∧
    (∀ ev ∈ s.2, ShapeOk size m ev) ∧ combined s.2 ≤ n ∧ ∃ q, q ≤ n ∧ S s.2 q

theorem logged_step {A : Type} {size m n : Nat} {S : List (REvent α β τ) → Nat → Prop} {p p' u v : Nat} {Q : A → Prop} {U0 : UB → Prop}
    (f : σ → σ × Option A) (ev : Option A → REvent α β τ) (hp : p' ≤ n)
    (h1 : ∀ r, ShapeOk size m (ev r)) (h2 : ∀ r, (ev r).threw = r.isNone)
    (h3 : ∀ log r, S log p → S (log ++ [ev r]) p') (h4 : ∀ r, p + combined [ev r] + u = p' + v) (hQ : ∀ s r, (f s).2 = some r → Q r) :
    Tri (LogAtS size m n S) (LogEndS size m n S) U0 p v p' u Q
      (invoke fun s : σ × List (REvent α β τ) => (((f s.1).1, s.2 ++ [ev (f s.1).2]), (f s.1).2)) := by
  rintro ⟨s, log⟩ ⟨g0, g1, g2, g4, g3⟩
  simp only at g1 g2 g3 g4
  have hc : ∀ r, combined (log ++ [ev r]) + u = p' := by
    intro r
    have := h4 r
    rw [combined_append]; omega
  have hsh : ∀ e ∈ log ++ [ev (f s).2], ShapeOk size m e := by
    intro e he
    rcases List.mem_append.1 he with he | he
    · exact g2 e he
    · rw [List.mem_singleton.1 he]; exact h1 _
  have hargs := h3 log (f s).2 g3
  cases hr : (f s).2 with
  | none =>
    right; left
    rw [hr] at hsh hargs
    exact ⟨((f s).1, log ++ [ev none]), by simp [Eff.invoke, hr], log, ev none, rfl, g1, by rw [h2]; rfl, hsh,
      by have := hc none; simp only; omega, p', hp, hargs⟩
  | some a =>
    left
    rw [hr] at hsh hargs
    refine ⟨((f s).1, log ++ [ev (some a)]), a, by simp [Eff.invoke, hr], ⟨hp, ?_, hsh, hc _, hargs⟩, hQ s a hr⟩
    intro e he
    rcases List.mem_append.1 he with he | he
    · exact g1 e he
    · rw [List.mem_singleton.1 he, h2]; rfl

theorem logged_primsS {t : TEnv} {m : Nat} {S : List (REvent α β τ) → Nat → Prop} {U0 : UB → Prop} (ops : ROps σ α β τ)
    (ld : Loader (σ × List (REvent α β τ)) β) (args : Nat → Nat → List (List α))
    (hargs : ∀ w p, WidthOk t.e.size w → p + w ≤ t.n → (args w p).length = m ∧ args w p ≠ [] ∧ ∀ a ∈ args w p, a.length = w)
    (hld : ∀ (aligned : Bool) (p w : Nat), (aligned = true → alignedAt t.e (p : Int) w = true) → p + w ≤ t.n → WidthOk t.e.size w →
      ld aligned w (p : Int) (p : Int) = invoke fun s => (loggedR ops).trans s (args w p))
    (h3 : ∀ log ev p, (∀ i, transformedArgs i [ev] = []) → transformedRows [ev] = [] → S log p → S (log ++ [ev]) p)
    (h4 : ∀ log p w r, WidthOk t.e.size w → p + w ≤ t.n → S log p → S (log ++ [.trans (args w p) r]) (p + w)) :
    Prims (LogAtS t.e.size m t.n S) (LogEndS t.e.size m t.n S) U0 t (loggedR ops) ld := by
  have weak : ∀ {A : Type} {p v u : Nat} {Q : A → Prop} {k : Eff (σ × List (REvent α β τ)) A},
      (p ≤ t.n → Tri (LogAtS t.e.size m t.n S) (LogEndS t.e.size m t.n S) U0 p v p u Q k) →
      Tri (LogAtS t.e.size m t.n S) (LogEndS t.e.size m t.n S) U0 p v p u Q k := by
    intro A p v u Q k h s hs
    exact h hs.1 s hs
  refine ⟨?_, ?_, ?_, ?_⟩
  · intro aligned p w hal hle hw u
    rw [hld aligned p w hal hle hw]
    obtain ⟨a1, a2, a3⟩ := hargs w p hw hle
    exact logged_step (fun s => ops.trans s (args w p)) (fun r => .trans (args w p) r) hle (fun _ => ⟨a1, w, hw, a3⟩)
      (fun _ => rfl) (fun log r h => h4 log p w r hw hle h) (fun _ => by simp [combined]; omega)
      (fun s r h => ops.transShape s w _ r a2 a3 h)
  · intro p u x y hxy hx
    exact weak fun hpn => logged_step (fun s => ops.red s x y) (fun r => .red x y r) hpn (fun _ => ⟨hxy, hx⟩)
      (fun _ => rfl) (fun log r h => h3 log _ p (fun _ => rfl) rfl h) (fun _ => by simp [combined]; omega)
      (fun s r h => ops.redShape s x y r hxy h)
  · intro p u v hv _
    have hlen := List.length_pos_of_ne_nil hv
    exact weak fun hpn => logged_step (fun s => ops.hredT s v) (fun r => .hredT v r) hpn (fun _ => hv) (fun _ => rfl)
      (fun log r h => h3 log _ p (fun _ => rfl) rfl h) (fun _ => by simp [combined]; omega) (fun _ _ _ => trivial)
  · intro p u v hv _
    have hlen := List.length_pos_of_ne_nil hv
    exact weak fun hpn => logged_step (fun s => ops.hredB s v) (fun r => .hredB v r) hpn (fun _ => hv) (fun _ => rfl)
      (fun log r h => h3 log _ p (fun _ => rfl) rfl h) (fun _ => by simp [combined]; omega) (fun _ _ _ => trivial)

theorem effectsWith_of_tri {size m n : Nat} {S : List (REvent α β τ) → Nat → Prop} {k : Eff (σ × List (REvent α β τ)) τ} {s : σ}
    (h0 : S [] 0)
    (h : Eff.Tri (LogAtS size m n S) (LogEndS size m n S) (fun _ => False) 0 0 n 0 (fun _ => True) k) :
    EffectsWith size m n S (k (s, [])) := by
  rcases h (s, []) ⟨Nat.zero_le _, by simp, by simp, rfl, h0⟩ with
    ⟨⟨s', log⟩, v, h1, ⟨_, h2, h3, h5, h4⟩, _⟩ | ⟨⟨s', full⟩, h1, log, last, h2, h3, h4, h5, h7, h6⟩ | ⟨_, _, h⟩
  · exact Or.inl ⟨s', log, v, h1, h2, h3, h5, h4⟩
  · simp only at h2 h5 h6 h7
    subst h2
    exact Or.inr ⟨s', log, last, h1, h3, h4, h5, h7, h6⟩
  · exact h.elim

theorem whileE_congr {T : Type} {n : Int} {body body' : Int → T → Eff σ T}
    (h : ∀ p st, 0 ≤ p → p < n → body p st = body' p st) (fuel : Nat) (pos : Int) (hp : 0 ≤ pos) (st : T) :
    whileE (fun p => decide (p < n)) 1 body fuel pos st = whileE (fun p => decide (p < n)) 1 body' fuel pos st := by
  induction fuel generalizing pos st with
  | zero => rfl
  | succ fuel ih =>
    unfold whileE
    by_cases hc : pos < n
    · simp only [hc, decide_true, if_true]
      rw [h pos st hp hc]
      congr 1
      funext st'
      exact ih (pos + 1) (by omega) st'
    · simp only [hc, decide_false, Bool.false_eq_true, if_false]

/-- In constant evaluation only single elements are loaded. -/
theorem transformReduceL_const_congr {t : TEnv} (ops : ROps σ α β τ) {ld ld' : Loader σ β} (hce : t.e.constEval = true)
    (h : ∀ p, p + 1 ≤ t.n → ld false 1 (p : Int) (p : Int) = ld' false 1 (p : Int) (p : Int)) (init : τ) (s : σ) :
    transformReduceL t ops ld init s = transformReduceL t ops ld' init s := by
  unfold transformReduceL
  simp only [hce, if_true]
  split
  · rfl
  · split
    · rfl
    · refine congrFun (congrArg (fun m : Eff σ (Int × τ) => (m >>= fun x => pure x.2 : Eff σ τ)) ?_) s
      refine whileE_congr ?_ _ _ (Int.le_refl 0) _
      intro p st hp hn
      obtain ⟨k, rfl⟩ := Int.eq_ofNat_of_zero_le hp
      rw [h k (by omega)]

end TransformReduce

namespace TransformArrays

variable {zero : α} {junk : Nat → α} {e : Env} {ins : List Range} {n : Nat} {arrays : List (List α)}

theorem viewArgs_one (Is : List Range) (as : List (List γ)) (h1 : ∀ I ∈ Is, I.F.WF I.c) (h2 : ∀ a ∈ as, a.length = 1) :
    viewArgs e Is as = as := by
  induction Is generalizing as with
  | nil => cases as <;> rfl
  | cons I Is ih =>
    cases as with
    | nil => rfl
    | cons a as =>
      rw [viewArgs, ih as (fun J hJ => h1 J (by simp [hJ])) fun x hx => h2 x (by simp [hx])]
      congr 1
      unfold view
      split
      · apply reorder_ordered
        intro hu
        have := hu.2.2.2.2.1
        rw [(h1 I (by simp)).width, h2 a (by simp)] at this
        omega
      · rfl

theorem viewArgs_getD {Is : List Range} {as : List (List γ)} {i : Nat} (h1 : i < Is.length) (h2 : i < as.length) :
    (viewArgs e Is as).getD i [] = view e Is[i] as[i] := by
  induction Is generalizing as i with
  | nil => simp at h1
  | cons I Is ih =>
    cases as with
    | nil => simp at h2
    | cons a as =>
      cases i with
      | zero => rfl
      | succ i => exact ih (by simpa using h1) (by simpa using h2)

theorem view_perm {I : Range} (h : I.F.WF I.c) (a : List γ) : (view e I a).Perm a := by
  unfold view
  split
  · exact reorder_perm (by rw [h.width])
  · exact List.Perm.refl _

theorem transformedRows_append (a b : List (REvent γ β τ)) : transformedRows (a ++ b) = transformedRows a ++ transformedRows b := by
  induction a with
  | nil => rfl
  | cons x a ih => cases x <;> simp [transformedRows, ih]

theorem range_take {A : Type} (f : Nat → A) {p w : Nat} (h : p + w ≤ n) :
    ((List.range n).map f).take (p + w) = ((List.range n).map f).take p ++ (List.range w).map fun i => f (p + i) := by
  rw [← List.map_take, ← List.map_take, List.take_range, List.take_range, Nat.min_eq_left h, Nat.min_eq_left (by omega), List.range_add,
    List.map_append, List.map_map]
  rfl

theorem eachOnce_step (ok : InputArraysOk ins n arrays) {log : List (REvent (List α) β τ)} {p w : Nat} {r : Option (List β)}
    (hp : p + w ≤ n) (h : EachOnce ins n arrays log p) :
    EachOnce ins n arrays (log ++ [.trans (viewArgs e ins (argsAt arrays ins w p)) r]) (p + w) := by
  intro i hi
  rw [transformedArgs_append]
  simp only [transformedArgs, List.append_nil]
  rw [viewArgs_getD hi (by simpa [argsAt] using hi)]
  unfold structsOf
  rw [range_take _ hp]
  refine List.Perm.append (h i hi) ((view_perm (ok.wf _ (List.getElem_mem hi)) _).trans ?_)
  simp [argsAt]

theorem rowsOnce_step (ok : InputArraysOk ins n arrays) (hu : UniformOrder e ins) {log : List (REvent (List α) β τ)} {p w : Nat}
    {r : Option (List β)} (hw : 0 < w) (hW : w ≤ e.size) (hp : p + w ≤ n) (h : RowsOnce ins n arrays log p) :
    RowsOnce ins n arrays (log ++ [.trans (viewArgs e ins (argsAt arrays ins w p)) r]) (p + w) := by
  unfold RowsOnce elementRows
  rw [transformedRows_append, range_take _ hp]
  refine List.Perm.append h ?_
  have has := argsAt_mem (arrays := arrays) (ins := ins) (w := w) (p := p)
  have hl : (argsAt arrays ins w p).length = ins.length := by simp [argsAt]
  have hrow : ∀ i < w, (argsAt arrays ins w p).filterMap (·[i]?) = ins.map fun I => structAt (contents arrays I) I.c (p + i) := by
    intro i hi
    unfold argsAt
    rw [List.filterMap_map, ← List.filterMap_eq_map]
    apply List.filterMap_congr
    intro I _
    simp [hi]
  cases hi : ins with
  | nil => exact absurd hi ok.ins_ne
  | cons I Is =>
    rw [← hi]
    have hI : I ∈ ins := by simp [hi]
    have h1 := viewArgs_uniform (e := e) (S := I.F.env w) (fun J hJ => hu w hw hW J hJ I hI) (Nat.le_of_eq hl) has hW
    have hh : ((viewArgs e ins (argsAt arrays ins w p)).headD []).length = w := by
      cases hv : viewArgs e ins (argsAt arrays ins w p) with
      | nil => exact absurd hv (viewArgs_ne (by intro h'; rw [h'] at hl; simp [hi] at hl))
      | cons b bs => exact viewArgs_mem (e := e) (Is := ins) has b (by simp [hv])
    simp only [transformedRows, List.append_nil, hh]
    rw [h1]
    have h2 : (List.range w).map (fun i => ((argsAt arrays ins w p).map (reorder (I.F.env w))).filterMap (·[i]?)) =
        reorder (I.F.env w) ((List.range w).map fun i => (argsAt arrays ins w p).filterMap (·[i]?)) := by
      apply List.ext_getElem?
      intro i
      by_cases hiw : i < w
      · rw [reorder_getElem? _ _ (by simpa using hiw)]
        simp only [List.getElem?_map, List.getElem?_range hiw, Option.map_some, List.length_map, List.length_range]
        rw [filterMap_map_reorder has hiw]
        split
        · rw [List.getElem?_range (Nat.mod_lt _ (by omega))]; rfl
        · rw [List.getElem?_range hiw]; rfl
      · rw [List.getElem?_eq_none (by simp; omega), List.getElem?_eq_none (by simp; omega)]
    rw [h2]
    refine (reorder_perm (by rw [(ok.wf I hI).width]; simp)).trans (List.Perm.of_eq ?_)
    apply List.map_congr_left
    intro i hi
    exact hrow i (List.mem_range.1 hi)

end TransformArrays
end Vir
