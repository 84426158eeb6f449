import Verif.Model.ProgOps
import Verif.Spec.ProgOps
import Verif.Lemmas.SimdProg
import Verif.Lemmas.PartialOps
import Verif.Props.SimdProg

/-! # Simd programs as callables, helper lemmas -/

namespace Vir
open Spec SimdProg ForEach Transform

/-- With enough fuel `x` has the result of `y`. -/
def Lim {A : Type} (x : Nat → Outcome A) (y : Outcome A) : Prop := ∀ a, y = .ok a → ∃ N, ∀ n, N ≤ n → x n = .ok a

theorem Lim.const {A : Type} (y : Outcome A) : Lim (fun _ => y) y := fun _ h => ⟨0, fun _ _ => h⟩

theorem Lim.bind {A B : Type} {x : Nat → Outcome A} {y : Outcome A} {f : Nat → A → Outcome B} {g : A → Outcome B} (h : Lim x y)
    (hf : ∀ a, Lim (fun n => f n a) (g a)) : Lim (fun n => x n >>= f n) (y >>= g) := by
  intro b hb
  cases hy : y with
  | ok a =>
    rw [hy, Outcome.bind_ok] at hb
    obtain ⟨N, hN⟩ := h a hy
    obtain ⟨M, hM⟩ := hf a b hb
    refine ⟨N + M, fun n hn => ?_⟩
    simp only []
    rw [hN n (by omega), Outcome.bind_ok]
    exact hM n (by omega)
  | ub u => rw [hy] at hb; cases hb
  | trap => rw [hy] at hb; cases hb

theorem runGroups_lim {S : Type} {inv : Nat → Group → Nat → S → Outcome S} {inv' : Group → Nat → S → Outcome S}
    (h : ∀ g p st, Lim (fun n => inv n g p st) (inv' g p st)) (gs : List Group) : ∀ p st,
      Lim (fun n => runGroups (inv n) p gs st) (runGroups inv' p gs st) := by
  induction gs with
  | nil => intro p st; exact Lim.const _
  | cons g gs ih => intro p st; exact Lim.bind (h g p st) fun st => ih _ st

variable {α : Type} {F : Nat → POp α} {op : POp α}

theorem invokeP_lim (h : ∀ w args, Lim (fun n => F n w args) (op w args)) (e : Env) (g : Group) (p : Nat) (mem : List α) :
    Lim (fun n => ForEach.atPos (invokeP e (F n)) g p mem) (ForEach.atPos (invokeP e op) g p mem) := by
  have ha : ∀ w cs, Lim (fun n => assignAll (F n) w cs) (assignAll op w cs) := by
    intro w cs
    induction cs with
    | nil => exact Lim.const _
    | cons c cs ih => exact Lim.bind (h w [c]) fun r => Lim.bind ih fun rs => Lim.const _
  exact Lim.bind (Lim.const _) fun cs => Lim.bind (ha _ cs) fun rs => Lim.const _

theorem chunksP_lim (h : ∀ w args, Lim (fun n => F n w args) (op w args)) (t : TEnv) (ord : Nat → List Nat) (g : Group) (p : Nat)
    (mem : List α) : Lim (fun n => Transform.atPos (chunksP t ord (F n)) g p mem) (Transform.atPos (chunksP t ord op) g p mem) := by
  have ha : ∀ w p1 p2 is, Lim (fun n => evalP t (F n) mem w p1 p2 is) (evalP t op mem w p1 p2 is) := by
    intro w p1 p2 is
    induction is with
    | nil => exact Lim.const _
    | cons i is ih => exact Lim.bind (Lim.const _) fun args => Lim.bind (h w args) fun v => Lim.bind ih fun r => Lim.const _
  exact Lim.bind (ha _ _ _ _) fun rs => Lim.const _

/-- The result with enough fuel, on arguments for which all lanes have values. -/
noncomputable def limOp (F : Nat → POp α) (R : List α → α → Prop) : POp α := fun w args =>
  open Classical in
  if h : ∃ r, (∃ N, ∀ n, N ≤ n → F n w args = .ok r) ∧ ∀ i < w, ∃ v, R (args.filterMap (·[i]?)) v then .ok h.choose else .ub .diverge

theorem limOp_lim (R : List α → α → Prop) (w : Nat) (args : List (List α)) : Lim (fun n => F n w args) (limOp F R w args) := by
  intro r hr
  unfold limOp at hr
  split at hr
  · rename_i h
    cases hr
    exact h.choose_spec.1
  · cases hr

theorem limOp_lanes {m : Nat} {P : α → Prop} {R : List α → α → Prop}
    (h : ∀ w args, args.length = m → (∀ a ∈ args, a.length = w ∧ ∀ x ∈ a, P x) → (∀ i < w, ∃ v, R (args.filterMap (·[i]?)) v) →
      ∃ r, (∃ N, ∀ n, N ≤ n → F n w args = .ok r) ∧ r.length = w ∧ ∀ (i : Nat) (v : α), r[i]? = some v → R (args.filterMap (·[i]?)) v) :
    OnEveryLane m P (limOp F R) R where
  value w args hl ha hd := by
    obtain ⟨r, hN, h1, h2⟩ := h w args hl ha hd
    have hex : ∃ r, (∃ N, ∀ n, N ≤ n → F n w args = .ok r) ∧ ∀ i < w, ∃ v, R (args.filterMap (·[i]?)) v := ⟨r, hN, hd⟩
    have he : hex.choose = r := by
      obtain ⟨N, hN⟩ := hN
      obtain ⟨M, hM⟩ := hex.choose_spec.1
      have a := hN (N + M) (by omega)
      have b := hM (N + M) (by omega)
      rw [a] at b
      exact (Outcome.ok.inj b).symm
    refine ⟨r, ?_, h1, h2⟩
    unfold limOp
    rw [dif_pos hex, he]
  undef w args hl ha i hi hd := by
    refine ⟨.diverge, ?_⟩
    unfold limOp
    rw [dif_neg]
    rintro ⟨_, _, h⟩
    obtain ⟨v, hv⟩ := h i hi
    exact hd v hv

theorem start_lane {w : Nat} {args : List (List Int)} {nt nm i : Nat} (hi : i < w) :
    laneOf ⟨args ++ List.replicate nt (List.replicate w 0), List.replicate nm (List.replicate w false)⟩ i =
      (args.filterMap (·[i]?) ++ List.replicate nt 0, List.replicate nm false) := by
  have rep : ∀ {α : Type} (k : Nat) (x : α), (List.replicate k (List.replicate w x)).filterMap (·[i]?) = List.replicate k x := by
    intro α k x
    induction k with
    | zero => rfl
    | succ k ih =>
      rw [List.replicate_succ, List.filterMap_cons_some (b := x) (by rw [List.getElem?_replicate, if_pos hi]), ih, List.replicate_succ]
  unfold laneOf
  rw [List.filterMap_append, rep, rep]

theorem has_zero {t : IntTy} : t.Has 0 := by
  have := Int.pow_pos (n := 2) (m := t.bits - 1) (by decide)
  have := Int.pow_pos (n := 2) (m := t.bits) (by decide)
  unfold IntTy.Has IntTy.lowest IntTy.max
  split <;> constructor <;> omega

theorem start_shape {m w : Nat} {ty : IntTy} {ts : List IntTy} {args : List (List Int)} (hm : args.length = m)
    (ha : ∀ a ∈ args, a.length = w ∧ ∀ x ∈ a, ty.Has x) (nm : Nat) : HasShape (List.replicate m ty ++ ts) nm w
      ⟨args ++ List.replicate ts.length (List.replicate w 0), List.replicate nm (List.replicate w false)⟩ := by
  refine ⟨by simp [hm], fun k t x hk hx => ?_, by simp, fun b hb => ?_⟩
  · by_cases h : k < m
    · rw [List.getElem?_append_left (by simpa using h), List.getElem?_replicate, if_pos h] at hk
      cases hk
      rw [List.getElem?_append_left (by omega)] at hx
      exact ha x (List.mem_of_getElem? hx)
    · simp only [] at hx
      rw [List.getElem?_append_right (by omega)] at hx
      have := List.mem_of_getElem? hx
      rw [List.eq_of_mem_replicate this]
      refine ⟨by simp, fun y hy => ?_⟩
      rw [List.eq_of_mem_replicate hy]
      exact has_zero
  · rw [List.eq_of_mem_replicate hb]; simp

/-- A program as operation: with enough fuel it has the value of every lane. -/
theorem progOp_value {m nm out : Nat} {ty : IntTy} {ts : List IntTy} {p : Stmt} (hts : VarTypes (List.replicate m ty ++ ts))
    (hp : Typed (List.replicate m ty ++ ts) nm p) (hout : out < m + ts.length) (w : Nat) (args : List (List Int)) (hl : args.length = m)
    (ha : ∀ a ∈ args, a.length = w ∧ ∀ x ∈ a, ty.Has x)
    (hd : ∀ i < w, ∃ v, ProgValue ts.length nm out p (args.filterMap (·[i]?)) v) :
    ∃ r, (∃ N, ∀ n, N ≤ n → progOp ts.length nm out p n w args = .ok r) ∧ r.length = w ∧
      ∀ (i : Nat) (v : Int), r[i]? = some v → ProgValue ts.length nm out p (args.filterMap (·[i]?)) v := by
  have hs := start_shape (ts := ts) hl ha nm
  obtain ⟨q, hq⟩ := choose_below (P := fun i (l : Lane) =>
    LaneRun p (args.filterMap (·[i]?) ++ List.replicate ts.length 0, List.replicate nm false) l) fun i hi => by
      obtain ⟨v, l, h, _⟩ := hd i hi
      exact ⟨l, h⟩
  have hla := fun i (hi : i < w) => start_lane (args := args) (nt := ts.length) (nm := nm) hi
  obtain ⟨s', N, hs', hl', hrun⟩ := prog_lanes hts p hp _ hs q fun i hi => by rw [hla i hi]; exact hq i hi
  have hlen := shape_len hs'
  have hk : out < s'.vars.length := by rw [hs'.vars]; simpa using hout
  refine ⟨s'.vars[out], ⟨N, fun n hn => ?_⟩, hlen _ (List.getElem_mem hk), fun i v hv => ?_⟩
  · unfold progOp
    rw [hrun n hn, Outcome.bind_ok]
    unfold SimdProg.get
    rw [List.getElem?_eq_getElem hk]
  · have hi : i < w := by
      rw [← hlen _ (List.getElem_mem hk)]
      exact (List.getElem?_eq_some_iff.1 hv).1
    refine ⟨q i, hq i hi, ?_⟩
    rw [← hl' i hi]
    unfold laneOf
    simp only []
    rw [(filterMap_lane (fun x hx => by rw [hlen x hx]; exact hi) out).1, List.getElem?_eq_getElem hk]
    exact hv

/-- `op` where it has a result, otherwise any values the relation allows. -/
noncomputable def forceOp (op : POp α) (R : List α → α → Prop) : POp α := fun w args =>
  open Classical in
  match op w args with
  | .ok r => .ok r
  | _ => if h : ∃ r : List α, r.length = w ∧ ∀ (i : Nat) (v : α), r[i]? = some v → R (args.filterMap (·[i]?)) v then .ok h.choose
    else .ub .diverge

theorem forceOp_lim (R : List α → α → Prop) (w : Nat) (args : List (List α)) : Lim (fun _ => forceOp op R w args) (op w args) := by
  intro r hr
  refine ⟨0, fun _ _ => ?_⟩
  simp only [forceOp, hr]

theorem forceOp_lanes [Inhabited α] {m : Nat} {P : α → Prop} {R : List α → α → Prop}
    (h : ∀ w args r, args.length = m → (∀ a ∈ args, a.length = w ∧ ∀ x ∈ a, P x) → op w args = .ok r →
      r.length = w ∧ ∀ (i : Nat) (v : α), r[i]? = some v → R (args.filterMap (·[i]?)) v) : OnEveryLane m P (forceOp op R) R where
  value w args hl ha hd := by
    obtain ⟨f, hf⟩ := choose_below hd
    have hex : ∃ r : List α, r.length = w ∧ ∀ (i : Nat) (v : α), r[i]? = some v → R (args.filterMap (·[i]?)) v := by
      refine ⟨(List.range w).map f, by simp, fun i v hv => ?_⟩
      obtain ⟨h1, rfl⟩ := List.getElem?_eq_some_iff.1 hv
      rw [List.getElem_map, List.getElem_range]
      exact hf i (by simpa using h1)
    unfold forceOp
    split
    · rename_i r hr
      exact ⟨r, rfl, h w args r hl ha hr⟩
    · rw [dif_pos hex]
      exact ⟨_, rfl, hex.choose_spec⟩
  undef w args hl ha i hi hd := by
    have key : ∀ r : List α, r.length = w → (∀ (i : Nat) (v : α), r[i]? = some v → R (args.filterMap (·[i]?)) v) → False :=
      fun r hr hv => hd _ (hv i _ (List.getElem?_eq_getElem (by omega)))
    unfold forceOp
    split
    · rename_i r hr
      exact (key r (h w args r hl ha hr).1 (h w args r hl ha hr).2).elim
    · rw [dif_neg fun ⟨r, h1, h2⟩ => key r h1 h2]
      exact ⟨_, rfl⟩

/-- Whatever a program as operation returns, the lanes got there. -/
theorem progOp_sound {m nm out : Nat} {ty : IntTy} {ts : List IntTy} {p : Stmt} (hts : VarTypes (List.replicate m ty ++ ts))
    (hp : Typed (List.replicate m ty ++ ts) nm p) {idle : Prop} (hi : idle ∨ MaskedLoops p) (fuel w : Nat) (args : List (List Int)) (r : List Int)
    (hl : args.length = m) (ha : ∀ a ∈ args, a.length = w ∧ ∀ x ∈ a, ty.Has x) (hr : progOp ts.length nm out p fuel w args = .ok r) :
    r.length = w ∧ ∀ (i : Nat) (v : Int), r[i]? = some v → StepsValue idle ts.length nm out p (args.filterMap (·[i]?)) v := by
  have hs := start_shape (ts := ts) hl ha nm
  unfold progOp at hr
  cases hrun : p.run w fuel ⟨args ++ List.replicate ts.length (List.replicate w 0), List.replicate nm (List.replicate w false)⟩ with
  | ub u => rw [hrun] at hr; cases hr
  | trap => rw [hrun] at hr; cases hr
  | ok s' =>
    rw [hrun, Outcome.bind_ok] at hr
    obtain ⟨hs', hst⟩ := prog_sound hts p hp _ s' hs fuel hrun
    have hlen := shape_len hs'
    unfold SimdProg.get at hr
    split at hr
    · rename_i x hx
      cases hr
      refine ⟨hlen _ (List.mem_of_getElem? hx), fun i v hv => ?_⟩
      have hiw : i < w := by
        rw [← hlen _ (List.mem_of_getElem? hx)]
        exact (List.getElem?_eq_some_iff.1 hv).1
      have hfin : (laneOf s' i).1[out]? = some v := by
        unfold laneOf
        simp only []
        rw [(filterMap_lane (fun x hx => by rw [hlen x hx]; exact hiw) out).1, hx]
        exact hv
      refine ⟨_, ?_, hfin⟩
      rw [← start_lane (args := args) (nt := ts.length) (nm := nm) hiw]
      by_cases hid : idle
      · rw [eq_true hid]
        exact hst i hiw
      · rw [eq_false hid]
        exact prog_sound_masked hts p hp (hi.resolve_left hid) _ s' hs fuel hrun hiw
    · cases hr

end Vir
