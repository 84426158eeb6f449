import Verif.Spec.SimdProg
import Verif.Lemmas.SimdExpr
import Verif.Lemmas.MaskReductions
import Verif.Props.SimdOps
import Mathlib.Tactic.ByContra

/-! # Simd programs and lanes, helper lemmas -/

namespace Vir.SimdProg
open Simd Spec SimdExpr

theorem choose_below {β : Type} [Inhabited β] {w : Nat} {P : Nat → β → Prop} (h : ∀ i, i < w → ∃ b, P i b) :
    ∃ f : Nat → β, ∀ i, i < w → P i (f i) := by
  classical
  refine ⟨fun i => if hi : i < w then (h i hi).choose else default, fun i hi => ?_⟩
  simp only [dif_pos hi]
  exact (h i hi).choose_spec

/-! ### states as functions from lanes -/

/-- The simd variables with the given lanes. -/
def packV (w nv : Nat) (σ : Nat → Lane) : List (List Int) :=
  (List.range nv).map fun k => (List.range w).map fun i => (σ i).1.getD k 0

/-- The mask variables with the given lanes. -/
def packM (w nm : Nat) (σ : Nat → Lane) : List (List Bool) :=
  (List.range nm).map fun k => (List.range w).map fun i => (σ i).2.getD k false

/-- The state with the given lanes. -/
def pack (w nv nm : Nat) (σ : Nat → Lane) : State := ⟨packV w nv σ, packM w nm σ⟩

/-- The variables of the lane have values of their types. -/
structure LaneTyped (ts : List IntTy) (nm : Nat) (l : Lane) : Prop where
  vars : l.1.length = ts.length
  var : ∀ (k : Nat) (t : IntTy) (x : Int), ts[k]? = some t → l.1[k]? = some x → t.Has x
  masks : l.2.length = nm

theorem pack_congr {w nv nm : Nat} {σ τ : Nat → Lane} (h : ∀ i, i < w → σ i = τ i) : pack w nv nm σ = pack w nv nm τ := by
  unfold pack packV packM
  congr 1 <;>
  · refine List.map_congr_left fun k _ => List.map_congr_left fun i hi => ?_
    rw [h i (List.mem_range.1 hi)]

theorem getD_eq {α : Type} {l : List α} {k : Nat} {x d : α} (h : l[k]? = some x) : l.getD k d = x := by
  rw [List.getD_eq_getElem?_getD, h]; rfl

theorem get_packV {w nv k : Nat} {σ : Nat → Lane} {f : Nat → Int} (hk : k < nv) (hf : ∀ i, i < w → (σ i).1[k]? = some (f i)) :
    get (packV w nv σ) k = .ok ((List.range w).map f) := by
  unfold get packV
  rw [List.getElem?_map, List.getElem?_range hk]
  simp only [Option.map_some]
  congr 1
  exact List.map_congr_left fun i hi => getD_eq (hf i (List.mem_range.1 hi))

theorem get_packM {w nm k : Nat} {σ : Nat → Lane} {f : Nat → Bool} (hk : k < nm) (hf : ∀ i, i < w → (σ i).2[k]? = some (f i)) :
    get (packM w nm σ) k = .ok ((List.range w).map f) := by
  unfold get packM
  rw [List.getElem?_map, List.getElem?_range hk]
  simp only [Option.map_some]
  congr 1
  exact List.map_congr_left fun i hi => getD_eq (hf i (List.mem_range.1 hi))

theorem getD_set {α : Type} {l : List α} {k j : Nat} {x d : α} (hk : k < l.length) : (l.set k x).getD j d = if k = j then x else l.getD j d := by
  rw [List.getD_eq_getElem?_getD, List.getD_eq_getElem?_getD, List.getElem?_set]
  split
  · rename_i h
    subst h
    simp
  · rfl

theorem packV_set {w nv k : Nat} {σ : Nat → Lane} {f : Nat → Int} (hl : ∀ i, i < w → (σ i).1.length = nv) (hk : k < nv) :
    (packV w nv σ).set k ((List.range w).map f) = packV w nv fun i => ((σ i).1.set k (f i), (σ i).2) := by
  apply List.ext_getElem?
  intro j
  rw [List.getElem?_set]
  unfold packV
  simp only [List.length_map, List.length_range, List.getElem?_map]
  by_cases hj : j < nv
  · rw [List.getElem?_range hj]
    simp only [Option.map_some]
    split
    · rename_i h
      subst h
      congr 1
      refine List.map_congr_left fun i hi => ?_
      rw [getD_set (by rw [hl i (List.mem_range.1 hi)]; exact hk), if_pos rfl]
    · rename_i h
      congr 1
      refine List.map_congr_left fun i hi => ?_
      rw [getD_set (by rw [hl i (List.mem_range.1 hi)]; exact hk), if_neg h]
  · rw [if_neg (by omega)]
    simp [List.getElem?_eq_none (l := List.range nv) (by simpa using hj)]

theorem packM_set {w nm k : Nat} {σ : Nat → Lane} {f : Nat → Bool} (hl : ∀ i, i < w → (σ i).2.length = nm) (hk : k < nm) :
    (packM w nm σ).set k ((List.range w).map f) = packM w nm fun i => ((σ i).1, (σ i).2.set k (f i)) := by
  apply List.ext_getElem?
  intro j
  rw [List.getElem?_set]
  unfold packM
  simp only [List.length_map, List.length_range, List.getElem?_map]
  by_cases hj : j < nm
  · rw [List.getElem?_range hj]
    simp only [Option.map_some]
    split
    · rename_i h
      subst h
      congr 1
      refine List.map_congr_left fun i hi => ?_
      rw [getD_set (by rw [hl i (List.mem_range.1 hi)]; exact hk), if_pos rfl]
    · rename_i h
      congr 1
      refine List.map_congr_left fun i hi => ?_
      rw [getD_set (by rw [hl i (List.mem_range.1 hi)]; exact hk), if_neg h]
  · rw [if_neg (by omega)]
    simp [List.getElem?_eq_none (l := List.range nm) (by simpa using hj)]

/-! ### values of expressions in one lane -/

variable {ts : List IntTy} {nm w : Nat}

theorem lt_of_some {α : Type} {l : List α} {k : Nat} {x : α} (h : l[k]? = some x) : k < l.length :=
  (List.getElem?_eq_some_iff.1 h).1

theorem exTyped_valid (hts : VarTypes ts) {e : Ex} {t : IntTy} (he : ExTyped ts e t) : ValidTy t := by
  induction e generalizing t with
  | var k => exact (hts t (List.mem_of_getElem? he)).1
  | lit t' c => exact he.2
  | bin t' op a b iha _ => exact iha he.2.1
  | un t' op a iha => exact iha he.2
  | cast s t' a _ => exact he.2.1

theorem exValue_has (hts : VarTypes ts) {xs : List Int}
    (hx : ∀ (k : Nat) (t : IntTy) (x : Int), ts[k]? = some t → xs[k]? = some x → t.Has x) {e : Ex} {t : IntTy} {v : Int}
    (he : ExTyped ts e t) (h : ExValue xs e v) : t.Has v := by
  induction h generalizing t with
  | var h => exact hx _ _ _ he h
  | lit h => rw [← he.1]; exact h.1
  | @bin t' op a b x y v h1 h2 h3 h4 iha ihb =>
    obtain ⟨rfl, ha, hb⟩ := he
    have hv := exTyped_valid hts ha
    obtain ⟨r, _, c2, c3⟩ := eval_spec t' hv op x y (iha ha) (fun _ _ => ihb hb) h3
    rw [result_unique hv.1 h4 c2]; exact c3
  | @un t' op a x v h1 h3 h4 iha =>
    obtain ⟨rfl, ha⟩ := he
    have hv := exTyped_valid hts ha
    obtain ⟨r, _, c2, c3⟩ := un_spec t' hv op x (iha ha) h3
    rw [un_unique hv.1 h4 c2]; exact c3
  | cast _ h _ => rw [← he.1]; exact h.1

theorem exValue_unique (hts : VarTypes ts) {xs : List Int} {e : Ex} {t : IntTy} {v v' : Int} (he : ExTyped ts e t)
    (h : ExValue xs e v) (h' : ExValue xs e v') : v = v' := by
  induction h generalizing t v' with
  | var h => cases h' with | var h' => exact Option.some.inj (h.symm.trans h')
  | lit h =>
    obtain ⟨rfl, hv⟩ := he
    cases h' with | lit h' => exact isWrapped_unique hv.1 h h'
  | @bin t' op a b x y v h1 h2 h3 h4 iha ihb =>
    obtain ⟨rfl, ha, hb⟩ := he
    have hv := exTyped_valid hts ha
    cases h' with
    | bin g1 g2 g3 g4 =>
      have e1 := iha ha g1
      have e2 := ihb hb g2
      subst e1 e2
      exact result_unique hv.1 h4 g4
  | @un t' op a x v h1 h3 h4 iha =>
    obtain ⟨rfl, ha⟩ := he
    have hv := exTyped_valid hts ha
    cases h' with
    | un g1 g3 g4 =>
      have e1 := iha ha g1
      subst e1
      exact un_unique hv.1 h4 g4
  | cast _ h iha =>
    obtain ⟨rfl, hv, ha⟩ := he
    cases h' with
    | cast g1 g2 =>
      have e1 := iha ha g1
      subst e1
      exact isWrapped_unique hv.1 h g2

theorem mkValue_unique (hts : VarTypes ts) {l : Lane} {m : Mk} {b b' : Bool} (hm : MkTyped ts nm m)
    (h : MkValue l m b) (h' : MkValue l m b') : b = b' := by
  induction h generalizing b' with
  | mvar h => cases h' with | mvar h' => exact Option.some.inj (h.symm.trans h')
  | cmp_true h1 h2 h3 =>
    cases h' with
    | cmp_true => rfl
    | cmp_false g1 g2 g3 =>
      rw [exValue_unique hts hm.1 h1 g1, exValue_unique hts hm.2 h2 g2] at h3
      exact absurd h3 g3
  | cmp_false h1 h2 h3 =>
    cases h' with
    | cmp_false => rfl
    | cmp_true g1 g2 g3 =>
      rw [exValue_unique hts hm.1 h1 g1, exValue_unique hts hm.2 h2 g2] at h3
      exact absurd g3 h3
  | and _ _ iha ihb =>
    cases h' with | and g1 g2 => rw [iha hm.1 g1, ihb hm.2 g2]
  | or _ _ iha ihb =>
    cases h' with | or g1 g2 => rw [iha hm.1 g1, ihb hm.2 g2]
  | not _ iha =>
    cases h' with | not g1 => rw [iha hm g1]

/-! ### expressions on simds -/

theorem unary_lanes (t : IntTy) (op : UnOp) (w : Nat) (f : Nat → Int) :
    Lanes w (fun i => unLane t op (f i)) (unary t op ((List.range w).map f)) := lanes_unary t op w f

theorem broadcast_map (conv : Int → Int) (c : Int) : broadcast w conv c = .ok ((List.range w).map fun _ => conv c) :=
  gen_eq w _ _ fun _ _ => rfl

theorem cast_map (conv : Int → Int) (f : Nat → Int) :
    staticSimdCast w conv ((List.range w).map f) = .ok ((List.range w).map fun i => conv (f i)) :=
  gen_eq w _ _ fun i hi => by rw [at'_map hi]; rfl

theorem map_range_congr {α : Type} {f g : Nat → α} (h : ∀ i, i < w → f i = g i) : (List.range w).map f = (List.range w).map g :=
  List.map_congr_left fun i hi => h i (List.mem_range.1 hi)

theorem ex_ok (hts : VarTypes ts) {σ : Nat → Lane} (hσ : ∀ i, i < w → LaneTyped ts nm (σ i)) {e : Ex} {t : IntTy} (he : ExTyped ts e t)
    {f : Nat → Int} (h : ∀ i, i < w → ExValue (σ i).1 e (f i)) : e.simd w (packV w ts.length σ) = .ok ((List.range w).map f) := by
  induction e generalizing t f with
  | var k =>
    unfold Ex.simd
    refine get_packV (lt_of_some he) fun i hi => ?_
    cases h i hi with | var h => exact h
  | lit t' c =>
    obtain ⟨rfl, hv⟩ := he
    unfold Ex.simd
    rw [broadcast_map]
    congr 1
    refine map_range_congr fun i hi => ?_
    cases h i hi with | lit h => exact isWrapped_unique hv.1 (isWrapped_conv hv.1 c) h
  | bin t' op a b iha ihb =>
    obtain ⟨rfl, ha, hb⟩ := he
    have hv := exTyped_valid hts ha
    obtain ⟨p, hp⟩ := choose_below (P := fun i (p : Int × Int) => ExValue (σ i).1 a p.1 ∧ ExValue (σ i).1 b p.2 ∧
      ¬ IsUndefined t' op p.1 p.2 ∧ IsResult t' op p.1 p.2 (f i)) fun i hi => by
        cases h i hi with | @bin _ _ _ _ x y _ h1 h2 h3 h4 => exact ⟨(x, y), h1, h2, h3, h4⟩
    unfold Ex.simd
    rw [iha ha fun i hi => (hp i hi).1, Outcome.bind_ok, ihb hb fun i hi => (hp i hi).2.1, Outcome.bind_ok]
    refine (lanes_binary t' op w _ _).1 f fun i hi => ?_
    obtain ⟨h1, h2, h3, h4⟩ := hp i hi
    obtain ⟨r, c1, c2, _⟩ := eval_spec t' hv op _ _ (exValue_has hts (hσ i hi).var ha h1)
      (fun _ _ => exValue_has hts (hσ i hi).var hb h2) h3
    rw [result_unique hv.1 h4 c2]; exact c1
  | un t' op a iha =>
    obtain ⟨rfl, ha⟩ := he
    have hv := exTyped_valid hts ha
    obtain ⟨p, hp⟩ := choose_below (P := fun i (p : Int) => ExValue (σ i).1 a p ∧
      ¬ IsUnUndefined t' op p ∧ IsUnResult t' op p (f i)) fun i hi => by
        cases h i hi with | @un _ _ _ x _ h1 h3 h4 => exact ⟨x, h1, h3, h4⟩
    unfold Ex.simd
    rw [iha ha fun i hi => (hp i hi).1, Outcome.bind_ok]
    refine (unary_lanes t' op w _).1 f fun i hi => ?_
    obtain ⟨h1, h3, h4⟩ := hp i hi
    obtain ⟨r, c1, c2, _⟩ := un_spec t' hv op _ (exValue_has hts (hσ i hi).var ha h1) h3
    rw [un_unique hv.1 h4 c2]; exact c1
  | cast s t' a iha =>
    obtain ⟨rfl, hv, ha⟩ := he
    obtain ⟨p, hp⟩ := choose_below (P := fun i (p : Int) => ExValue (σ i).1 a p ∧ IsWrapped t' p (f i)) fun i hi => by
        cases h i hi with | @cast _ _ _ x _ h1 h2 => exact ⟨x, h1, h2⟩
    unfold Ex.simd
    rw [iha ha fun i hi => (hp i hi).1, Outcome.bind_ok, cast_map]
    congr 1
    exact map_range_congr fun i hi => isWrapped_unique hv.1 (isWrapped_conv hv.1 _) (hp i hi).2

theorem ex_ub (hts : VarTypes ts) {σ : Nat → Lane} (hσ : ∀ i, i < w → LaneTyped ts nm (σ i)) {e : Ex} {t : IntTy} (he : ExTyped ts e t)
    (h : ∃ i, i < w ∧ ∀ v, ¬ ExValue (σ i).1 e v) : ∃ u, e.simd w (packV w ts.length σ) = .ub u := by
  induction e generalizing t with
  | var k =>
    obtain ⟨i, hi, h⟩ := h
    have hk : k < (σ i).1.length := by rw [(hσ i hi).vars]; exact lt_of_some he
    exact absurd (.var (List.getElem?_eq_getElem hk)) (h _)
  | lit t' c =>
    obtain ⟨i, hi, h⟩ := h
    exact absurd (.lit (isWrapped_conv (he.1 ▸ he.2).1 c)) (h _)
  | bin t' op a b iha ihb =>
    obtain ⟨rfl, ha, hb⟩ := he
    have hv := exTyped_valid hts ha
    unfold Ex.simd
    by_cases hA : ∀ i, i < w → ∃ v, ExValue (σ i).1 a v
    · obtain ⟨f, hf⟩ := choose_below hA
      rw [ex_ok hts hσ ha hf, Outcome.bind_ok]
      by_cases hB : ∀ i, i < w → ∃ v, ExValue (σ i).1 b v
      · obtain ⟨g, hg⟩ := choose_below hB
        rw [ex_ok hts hσ hb hg, Outcome.bind_ok]
        refine (lanes_binary t' op w f g).2 ?_
        obtain ⟨i, hi, h⟩ := h
        have h1 := exValue_has hts (hσ i hi).var ha (hf i hi)
        have h2 := exValue_has hts (hσ i hi).var hb (hg i hi)
        refine ⟨i, hi, eval_ub t' hv op _ _ h1 (fun _ _ => h2) ?_⟩
        by_contra hd
        obtain ⟨r, _, c2, _⟩ := eval_spec t' hv op _ _ h1 (fun _ _ => h2) hd
        exact h r (.bin (hf i hi) (hg i hi) hd c2)
      · obtain ⟨u, hu⟩ := ihb hb (by
          by_contra hn
          exact hB fun i hi => by
            by_contra hi'
            exact hn ⟨i, hi, fun v hv => hi' ⟨v, hv⟩⟩)
        rw [hu]; exact ⟨u, rfl⟩
    · obtain ⟨u, hu⟩ := iha ha (by
        by_contra hn
        exact hA fun i hi => by
          by_contra hi'
          exact hn ⟨i, hi, fun v hv => hi' ⟨v, hv⟩⟩)
      rw [hu]; exact ⟨u, rfl⟩
  | un t' op a iha =>
    obtain ⟨rfl, ha⟩ := he
    have hv := exTyped_valid hts ha
    unfold Ex.simd
    by_cases hA : ∀ i, i < w → ∃ v, ExValue (σ i).1 a v
    · obtain ⟨f, hf⟩ := choose_below hA
      rw [ex_ok hts hσ ha hf, Outcome.bind_ok]
      refine (unary_lanes t' op w f).2 ?_
      obtain ⟨i, hi, h⟩ := h
      have h1 := exValue_has hts (hσ i hi).var ha (hf i hi)
      refine ⟨i, hi, un_ub t' op _ ?_⟩
      by_contra hd
      obtain ⟨r, _, c2, _⟩ := un_spec t' hv op _ h1 hd
      exact h r (.un (hf i hi) hd c2)
    · obtain ⟨u, hu⟩ := iha ha (by
        by_contra hn
        exact hA fun i hi => by
          by_contra hi'
          exact hn ⟨i, hi, fun v hv => hi' ⟨v, hv⟩⟩)
      rw [hu]; exact ⟨u, rfl⟩
  | cast s t' a iha =>
    obtain ⟨rfl, hv, ha⟩ := he
    unfold Ex.simd
    obtain ⟨i, hi, h⟩ := h
    obtain ⟨u, hu⟩ := iha ha ⟨i, hi, fun v hv' => h _ (.cast hv' (isWrapped_conv hv.1 v))⟩
    rw [hu]; exact ⟨u, rfl⟩

/-! ### mask expressions -/

theorem maskBinary_map (op : Bool → Bool → Bool) (f g : Nat → Bool) :
    maskBinary op ((List.range w).map f) ((List.range w).map g) = .ok ((List.range w).map fun i => op (f i) (g i)) := by
  rw [(maskBinary_spec op _ _ (by simp)).1]
  congr 1
  apply List.ext_getElem (by simp)
  intro i h1 h2
  simp

theorem maskNot_map (f : Nat → Bool) : maskNot ((List.range w).map f) = .ok ((List.range w).map fun i => !(f i)) := by
  rw [maskNot_spec, List.map_map]; rfl

theorem mk_ok (hts : VarTypes ts) {σ : Nat → Lane} (hσ : ∀ i, i < w → LaneTyped ts nm (σ i)) {m : Mk} (hm : MkTyped ts nm m)
    {f : Nat → Bool} (h : ∀ i, i < w → MkValue (σ i) m (f i)) : m.simd w (pack w ts.length nm σ) = .ok ((List.range w).map f) := by
  induction m generalizing f with
  | mvar j =>
    unfold Mk.simd
    refine get_packM hm fun i hi => ?_
    cases h i hi with | mvar h => exact h
  | cmp op t a b =>
    obtain ⟨p, hp⟩ := choose_below (P := fun i (p : Int × Int) => ExValue (σ i).1 a p.1 ∧ ExValue (σ i).1 b p.2 ∧
      f i = op.eval p.1 p.2) fun i hi => by
        generalize hfi : f i = c
        have := h i hi
        rw [hfi] at this
        cases this with
        | @cmp_true _ _ _ _ x y h1 h2 h3 => exact ⟨(x, y), h1, h2, ((cmp_eval op x y).2 h3).symm⟩
        | @cmp_false _ _ _ _ x y h1 h2 h3 =>
          refine ⟨(x, y), h1, h2, ?_⟩
          cases hh : op.eval x y with
          | false => rfl
          | true => exact absurd ((cmp_eval op x y).1 hh) h3
    unfold Mk.simd
    simp only [pack]
    rw [ex_ok hts hσ hm.1 fun i hi => (hp i hi).1, Outcome.bind_ok, ex_ok hts hσ hm.2 fun i hi => (hp i hi).2.1, Outcome.bind_ok, compare_map]
    congr 1
    exact map_range_congr fun i hi => (hp i hi).2.2.symm
  | and a b iha ihb =>
    obtain ⟨p, hp⟩ := choose_below (P := fun i (p : Bool × Bool) => MkValue (σ i) a p.1 ∧ MkValue (σ i) b p.2 ∧
      f i = (p.1 && p.2)) fun i hi => by
        generalize hfi : f i = c
        have := h i hi
        rw [hfi] at this
        cases this with | @and _ _ x y h1 h2 => exact ⟨(x, y), h1, h2, rfl⟩
    unfold Mk.simd
    rw [iha hm.1 fun i hi => (hp i hi).1, Outcome.bind_ok, ihb hm.2 fun i hi => (hp i hi).2.1, Outcome.bind_ok, maskBinary_map]
    congr 1
    exact map_range_congr fun i hi => (hp i hi).2.2.symm
  | or a b iha ihb =>
    obtain ⟨p, hp⟩ := choose_below (P := fun i (p : Bool × Bool) => MkValue (σ i) a p.1 ∧ MkValue (σ i) b p.2 ∧
      f i = (p.1 || p.2)) fun i hi => by
        generalize hfi : f i = c
        have := h i hi
        rw [hfi] at this
        cases this with | @or _ _ x y h1 h2 => exact ⟨(x, y), h1, h2, rfl⟩
    unfold Mk.simd
    rw [iha hm.1 fun i hi => (hp i hi).1, Outcome.bind_ok, ihb hm.2 fun i hi => (hp i hi).2.1, Outcome.bind_ok, maskBinary_map]
    congr 1
    exact map_range_congr fun i hi => (hp i hi).2.2.symm
  | not a iha =>
    obtain ⟨p, hp⟩ := choose_below (P := fun i (p : Bool) => MkValue (σ i) a p ∧ f i = !p) fun i hi => by
        generalize hfi : f i = c
        have := h i hi
        rw [hfi] at this
        cases this with | @not _ x h1 => exact ⟨x, h1, rfl⟩
    unfold Mk.simd
    rw [iha hm fun i hi => (hp i hi).1, Outcome.bind_ok, maskNot_map]
    congr 1
    exact map_range_congr fun i hi => (hp i hi).2.symm

theorem not_all {β : Type} {P : Nat → β → Prop} (h : ¬ ∀ i, i < w → ∃ v, P i v) : ∃ i, i < w ∧ ∀ v, ¬ P i v := by
  by_contra hn
  exact h fun i hi => by
    by_contra hi'
    exact hn ⟨i, hi, fun v hv => hi' ⟨v, hv⟩⟩

theorem mk_ub (hts : VarTypes ts) {σ : Nat → Lane} (hσ : ∀ i, i < w → LaneTyped ts nm (σ i)) {m : Mk} (hm : MkTyped ts nm m)
    (h : ∃ i, i < w ∧ ∀ b, ¬ MkValue (σ i) m b) : ∃ u, m.simd w (pack w ts.length nm σ) = .ub u := by
  induction m with
  | mvar j =>
    obtain ⟨i, hi, h⟩ := h
    have hk : j < (σ i).2.length := by rw [(hσ i hi).masks]; exact hm
    exact absurd (.mvar (List.getElem?_eq_getElem hk)) (h _)
  | cmp op t a b =>
    unfold Mk.simd
    simp only [pack]
    by_cases hA : ∀ i, i < w → ∃ v, ExValue (σ i).1 a v
    · obtain ⟨f, hf⟩ := choose_below hA
      rw [ex_ok hts hσ hm.1 hf, Outcome.bind_ok]
      by_cases hB : ∀ i, i < w → ∃ v, ExValue (σ i).1 b v
      · obtain ⟨g, hg⟩ := choose_below hB
        obtain ⟨i, hi, h⟩ := h
        by_cases hc : cmpHolds op (f i) (g i)
        · exact absurd (.cmp_true (hf i hi) (hg i hi) hc) (h _)
        · exact absurd (.cmp_false (hf i hi) (hg i hi) hc) (h _)
      · obtain ⟨u, hu⟩ := ex_ub hts hσ hm.2 (not_all hB)
        rw [hu]; exact ⟨u, rfl⟩
    · obtain ⟨u, hu⟩ := ex_ub hts hσ hm.1 (not_all hA)
      rw [hu]; exact ⟨u, rfl⟩
  | and a b iha ihb =>
    unfold Mk.simd
    by_cases hA : ∀ i, i < w → ∃ v, MkValue (σ i) a v
    · obtain ⟨f, hf⟩ := choose_below hA
      rw [mk_ok hts hσ hm.1 hf, Outcome.bind_ok]
      by_cases hB : ∀ i, i < w → ∃ v, MkValue (σ i) b v
      · obtain ⟨g, hg⟩ := choose_below hB
        obtain ⟨i, hi, h⟩ := h
        exact absurd (.and (hf i hi) (hg i hi)) (h _)
      · obtain ⟨u, hu⟩ := ihb hm.2 (not_all hB)
        rw [hu]; exact ⟨u, rfl⟩
    · obtain ⟨u, hu⟩ := iha hm.1 (not_all hA)
      rw [hu]; exact ⟨u, rfl⟩
  | or a b iha ihb =>
    unfold Mk.simd
    by_cases hA : ∀ i, i < w → ∃ v, MkValue (σ i) a v
    · obtain ⟨f, hf⟩ := choose_below hA
      rw [mk_ok hts hσ hm.1 hf, Outcome.bind_ok]
      by_cases hB : ∀ i, i < w → ∃ v, MkValue (σ i) b v
      · obtain ⟨g, hg⟩ := choose_below hB
        obtain ⟨i, hi, h⟩ := h
        exact absurd (.or (hf i hi) (hg i hi)) (h _)
      · obtain ⟨u, hu⟩ := ihb hm.2 (not_all hB)
        rw [hu]; exact ⟨u, rfl⟩
    · obtain ⟨u, hu⟩ := iha hm.1 (not_all hA)
      rw [hu]; exact ⟨u, rfl⟩
  | not a iha =>
    unfold Mk.simd
    obtain ⟨i, hi, h⟩ := h
    obtain ⟨u, hu⟩ := iha hm ⟨i, hi, fun v hv' => h _ (.not hv')⟩
    rw [hu]; exact ⟨u, rfl⟩

/-! ### statements on simds -/

theorem inplace_lanes {body : Nat → List Int → Outcome (List Int)} {H : Nat → Int → Outcome Int} {f : Nat → Int}
    (ht : ∀ i a, H i a ≠ .trap)
    (hb : ∀ i d a, i < w → d.length = w → d[i]? = some a → body i d = (H i a >>= fun c => .ok (d.set i c))) :
    Lanes w (fun i => H i (f i)) (forUp body w 0 ((List.range w).map f)) := by
  have hfi : ∀ i, i < w → ((List.range w).map f)[i]? = some (f i) := fun i hi => by
    rw [List.getElem?_map, List.getElem?_range hi]; rfl
  constructor
  · intro g hg
    have := forUp_all (body := body) (v := (List.range w).map f) (r := (List.range w).map g) (by simp) fun i hi d hd1 hd2 => by
      simp only [List.length_map, List.length_range] at hi hd1
      have hdi : d[i]? = some (f i) := by rw [hd2 i (Nat.le_refl _), hfi i hi]
      have hgi : H i (f i) = .ok (g i) := hg i hi
      rw [hb i d (f i) hi hd1 hdi, hgi, Outcome.bind_ok]
      simp
    simpa using this
  · rintro ⟨k, hk, u, hu⟩
    refine forUp_some_ub (fun d => d.length = w ∧ d[k]? = some (f k)) ⟨by simp, hfi k hk⟩ ?_ hk ?_
    · rintro j d hj ⟨hd1, hd2⟩
      have hdj : d[j]? = some (d[j]'(by omega)) := List.getElem?_eq_getElem (by omega)
      rw [hb j d _ hj hd1 hdj]
      cases hh : H j (d[j]'(by omega)) with
      | ok c =>
        by_cases hjk : j = k
        · subst hjk
          have := Option.some.inj (hdj.symm.trans hd2)
          rw [this] at hh
          simp only [] at hu
          rw [hu] at hh
          cases hh
        · refine .inl ⟨d.set j c, rfl, by simpa using hd1, ?_⟩
          rw [List.getElem?_set_ne hjk]; exact hd2
      | ub u => exact .inr ⟨u, rfl⟩
      | trap => exact absurd hh (ht _ _)
    · rintro d ⟨hd1, hd2⟩
      simp only [] at hu
      rw [hb k d _ hk hd1 hd2, hu]
      exact ⟨u, rfl⟩

theorem wr_set {d : List Int} {i : Nat} (c : Int) (hi : i < d.length) : wr d i c = .ok (d.set i c) := by rw [wr, if_pos hi]

theorem rd_some {α : Type} {d : List α} {i : Nat} {a : α} (h : d[i]? = some a) : rd d i = .ok a := by rw [rd, h]
theorem at'_some {α : Type} {d : List α} {i : Nat} {a : α} (h : d[i]? = some a) : at' d i = .ok a := by rw [at', h]

theorem map_range_get {α : Type} {f : Nat → α} {i : Nat} (hi : i < w) : ((List.range w).map f)[i]? = some (f i) := by
  rw [List.getElem?_map, List.getElem?_range hi]; rfl

theorem compound_lanes (t : IntTy) (op : BinOp) (f g : Nat → Int) (rhs : Option (List Int))
    (hr : rhs = some ((List.range w).map g) ∨ rhs = none ∧ ∀ i, i < w → g i = f i) :
    Lanes w (fun i => op.eval t (f i) (g i)) (compound t op ((List.range w).map f) rhs) := by
  have hlen : ((List.range w).map f).length = w := by simp
  unfold compound
  rw [hlen]
  rcases hr with rfl | ⟨rfl, hg⟩
  · refine inplace_lanes (H := fun i a => op.eval t a (g i)) (fun i a => eval_not_trap _ _ _ _) fun i d a hi hd ha => ?_
    rw [rd_some ha, Outcome.bind_ok, Option.getD_some, rd_some (map_range_get hi), Outcome.bind_ok]
    cases op.eval t a (g i) with
    | ok c => simp only [Outcome.bind_ok]; rw [wr_set c (by omega)]
    | ub u => rfl
    | trap => rfl
  · have := inplace_lanes (w := w) (f := f) (H := fun i a => op.eval t a a) (fun i a => eval_not_trap _ _ _ _)
      (body := fun i d => do
        let a ← rd d i
        let b ← rd ((none : Option (List Int)).getD d) i
        wr d i (← op.eval t a b)) fun i d a hi hd ha => by
        simp only [Option.getD_none]
        rw [rd_some ha, Outcome.bind_ok, Outcome.bind_ok]
        cases op.eval t a a with
        | ok c => simp only [Outcome.bind_ok]; rw [wr_set c (by omega)]
        | ub u => rfl
        | trap => rfl
    refine ⟨fun h hh => this.1 h fun i hi => ?_, fun ⟨i, hi, hu⟩ => this.2 ⟨i, hi, ?_⟩⟩
    · have := hh i hi
      simp only [hg i hi] at this
      exact this
    · simp only [hg i hi] at hu
      exact hu

theorem preStep_lanes {F : Int → Outcome Int} (hF : ∀ a, F a ≠ .trap) (f : Nat → Int) :
    Lanes w (fun i => F (f i)) (preStep F ((List.range w).map f)) := by
  have hlen : ((List.range w).map f).length = w := by simp
  unfold preStep
  rw [hlen]
  refine inplace_lanes (H := fun _ a => F a) (fun _ => hF) fun i d a hi hd ha => ?_
  rw [rd_some ha, Outcome.bind_ok]
  cases F a with
  | ok c => simp only [Outcome.bind_ok]; rw [wr_set c (by omega)]
  | ub u => rfl
  | trap => rfl

theorem masked_lanes {G : Nat → Int → Outcome Int} {H : Nat → Int → Outcome Int} (hH : ∀ i a, H i a ≠ .trap)
    (hG : ∀ i a, i < w → G i a = H i a) (k : Nat → Bool) (f : Nat → Int) :
    Lanes w (fun i => if k i then H i (f i) else .ok (f i)) (maskedUpdate G ((List.range w).map k) ((List.range w).map f)) := by
  have hlen : ((List.range w).map f).length = w := by simp
  unfold maskedUpdate
  rw [hlen]
  refine inplace_lanes (H := fun i a => if k i then H i a else .ok a) (fun i a => ?_) fun i d a hi hd ha => ?_
  · split
    · exact hH i a
    · simp
  · rw [at'_some (map_range_get hi), Outcome.bind_ok]
    cases k i with
    | true =>
      simp only [if_true]
      rw [at'_some ha, Outcome.bind_ok, hG i a hi]
      cases H i a with
      | ok c => simp only [Outcome.bind_ok]; rw [wr_set c (by omega)]
      | ub u => rfl
      | trap => rfl
    | false =>
      simp only [Bool.false_eq_true, if_false, Outcome.bind_ok]
      obtain ⟨h1, h2⟩ := List.getElem?_eq_some_iff.1 ha
      rw [← h2, List.set_getElem_self]

/-! ### statements on lanes -/

theorem op_ok {t : IntTy} (hv : ValidTy t) {op : BinOp} {x y v : Int} (hx : t.Has x) (hy : t.Has y) (hd : ¬ IsUndefined t op x y)
    (hr : IsResult t op x y v) : op.eval t x y = .ok v ∧ t.Has v := by
  obtain ⟨r, c1, c2, c3⟩ := eval_spec t hv op x y hx (fun _ _ => hy) hd
  rw [result_unique hv.1 hr c2]
  exact ⟨c1, c3⟩

theorem has_one {t : IntTy} (h : 1 < t.bits) : t.Has 1 := by
  unfold IntTy.Has IntTy.lowest IntTy.max
  have h1 : (2 : Int) ^ 1 ≤ 2 ^ (t.bits - 1) := by
    have := Nat.pow_le_pow_right (n := 2) (by decide) (show 1 ≤ t.bits - 1 by omega)
    exact_mod_cast this
  have h2 : (2 : Int) ^ 1 ≤ 2 ^ t.bits := by
    have := Nat.pow_le_pow_right (n := 2) (by decide) (show 1 ≤ t.bits by omega)
    exact_mod_cast this
  split <;> constructor <;> omega

theorem stepFn_eq (t : IntTy) (up : Bool) (x : Int) : stepFn t up x = (stepOp up).eval t x 1 := by
  cases up <;> rfl

theorem LaneTyped.set {l : Lane} (h : LaneTyped ts nm l) {k : Nat} {t : IntTy} (hk : ts[k]? = some t) {v : Int} (hv : t.Has v) :
    LaneTyped ts nm (l.1.set k v, l.2) := by
  refine ⟨by simpa using h.vars, fun j t' x hj hx => ?_, h.masks⟩
  rw [List.getElem?_set] at hx
  split at hx
  · rename_i hkj
    subst hkj
    split at hx
    · rw [hk] at hj
      cases hj; cases hx; exact hv
    · cases hx
  · exact h.var j t' x hj hx

theorem laneRun_typed (hts : VarTypes ts) {p : Stmt} {l l' : Lane} (h : LaneRun p l l') : Typed ts nm p → LaneTyped ts nm l →
    LaneTyped ts nm l' := by
  induction h with
  | skip => intro _ h; exact h
  | seq _ _ iha ihb => intro hp h; exact ihb hp.2 (iha hp.1 h)
  | assign he => rintro ⟨t, hk, ht⟩ h; exact h.set hk (exValue_has hts h.var ht he)
  | compound he hx hd hr =>
    rintro ⟨hk, ht⟩ h
    exact h.set hk (op_ok (exTyped_valid hts ht) (h.var _ _ _ hk hx) (exValue_has hts h.var ht he) hd hr).2
  | step hx hd hr =>
    intro hk h
    have hv := hts _ (List.mem_of_getElem? hk)
    exact h.set hk (op_ok hv.1 (h.var _ _ _ hk hx) (has_one hv.2) hd hr).2
  | where_true _ he => rintro ⟨-, t, hk, ht⟩ h; exact h.set hk (exValue_has hts h.var ht he)
  | where_false => intro _ h; exact h
  | whereCompound_true _ he hx hd hr =>
    rintro ⟨-, hk, ht⟩ h
    exact h.set hk (op_ok (exTyped_valid hts ht) (h.var _ _ _ hk hx) (exValue_has hts h.var ht he) hd hr).2
  | whereCompound_false => intro _ h; exact h
  | whereStep_true _ hx hd hr =>
    rintro ⟨-, hk⟩ h
    have hv := hts _ (List.mem_of_getElem? hk)
    exact h.set hk (op_ok hv.1 (h.var _ _ _ hk hx) (has_one hv.2) hd hr).2
  | whereStep_false => intro _ h; exact h
  | setMask _ => intro _ h; exact ⟨h.vars, h.var, by simpa using h.masks⟩
  | loop_more _ _ _ ihb ihl => intro hp h; exact ihl hp (ihb hp.2 h)
  | loop_done => intro _ h; exact h

theorem laneRun_unique (hts : VarTypes ts) {p : Stmt} {l l' : Lane} (h : LaneRun p l l') : Typed ts nm p → LaneTyped ts nm l →
    ∀ l'', LaneRun p l l'' → l' = l'' := by
  induction h with
  | skip => intro _ _ l'' h'; cases h'; rfl
  | seq h1 h2 iha ihb =>
    intro hp h l'' h'
    cases h' with
    | seq g1 g2 =>
      have := iha hp.1 h _ g1
      subst this
      exact ihb hp.2 (laneRun_typed hts h1 hp.1 h) _ g2
  | assign he =>
    rintro ⟨t, hk, ht⟩ h l'' h'
    cases h' with | assign g => rw [exValue_unique hts ht he g]
  | compound he hx hd hr =>
    rintro ⟨hk, ht⟩ h l'' h'
    cases h' with
    | compound g1 g2 g3 g4 =>
      have e1 := exValue_unique hts ht he g1
      have e2 := Option.some.inj (hx.symm.trans g2)
      subst e1 e2
      rw [result_unique (exTyped_valid hts ht).1 hr g4]
  | step hx hd hr =>
    intro hk h l'' h'
    cases h' with
    | step g2 g3 g4 =>
      have e2 := Option.some.inj (hx.symm.trans g2)
      subst e2
      rw [result_unique (hts _ (List.mem_of_getElem? hk)).1.1 hr g4]
  | where_true hm he =>
    rintro ⟨hmt, t, hk, ht⟩ h l'' h'
    cases h' with
    | where_true _ g => rw [exValue_unique hts ht he g]
    | where_false g _ => exact absurd (mkValue_unique hts hmt hm g) (by decide)
  | where_false hm he =>
    rintro ⟨hmt, t, hk, ht⟩ h l'' h'
    cases h' with
    | where_true g _ => exact absurd (mkValue_unique hts hmt hm g) (by decide)
    | where_false => rfl
  | whereCompound_true hm he hx hd hr =>
    rintro ⟨hmt, hk, ht⟩ h l'' h'
    cases h' with
    | whereCompound_true g0 g1 g2 g3 g4 =>
      have e1 := exValue_unique hts ht he g1
      have e2 := Option.some.inj (hx.symm.trans g2)
      subst e1 e2
      rw [result_unique (exTyped_valid hts ht).1 hr g4]
    | whereCompound_false g _ => exact absurd (mkValue_unique hts hmt hm g) (by decide)
  | whereCompound_false hm he =>
    rintro ⟨hmt, hk, ht⟩ h l'' h'
    cases h' with
    | whereCompound_true g => exact absurd (mkValue_unique hts hmt hm g) (by decide)
    | whereCompound_false => rfl
  | whereStep_true hm hx hd hr =>
    rintro ⟨hmt, hk⟩ h l'' h'
    cases h' with
    | whereStep_true g0 g2 g3 g4 =>
      have e2 := Option.some.inj (hx.symm.trans g2)
      subst e2
      rw [result_unique (hts _ (List.mem_of_getElem? hk)).1.1 hr g4]
    | whereStep_false g => exact absurd (mkValue_unique hts hmt hm g) (by decide)
  | whereStep_false hm =>
    rintro ⟨hmt, hk⟩ h l'' h'
    cases h' with
    | whereStep_true g => exact absurd (mkValue_unique hts hmt hm g) (by decide)
    | whereStep_false => rfl
  | setMask hm =>
    rintro ⟨hj, hmt⟩ h l'' h'
    cases h' with | setMask g => rw [mkValue_unique hts hmt hm g]
  | loop_more hm h1 h2 ihb ihl =>
    rintro hp h l'' h'
    cases h' with
    | loop_more g0 g1 g2 =>
      have := ihb hp.2 h _ g1
      subst this
      exact ihl hp (laneRun_typed hts h1 hp.2 h) _ g2
    | loop_done g _ => exact absurd (mkValue_unique hts hp.1 hm g) (by decide)
  | loop_done hm _ _ =>
    rintro hp h l'' h'
    cases h' with
    | loop_more g _ _ => exact absurd (mkValue_unique hts hp.1 hm g) (by decide)
    | loop_done => rfl

/-! ### the main lemma: all lanes run -/

theorem set_ok {σ τ : Nat → Lane} (hσ : ∀ i, i < w → LaneTyped ts nm (σ i)) {k : Nat} (hk : k < ts.length) {r : Outcome (List Int)}
    {g : Nat → Int} (hr : r = .ok ((List.range w).map g)) (hτ : ∀ i, i < w → τ i = ((σ i).1.set k (g i), (σ i).2)) :
    (do let x ← r; .ok (State.mk ((packV w ts.length σ).set k x) (packM w nm σ))) = Outcome.ok (pack w ts.length nm τ) := by
  rw [hr, Outcome.bind_ok, packV_set (fun i hi => (hσ i hi).vars) hk]
  have := pack_congr (nv := ts.length) (nm := nm) hτ
  rw [this]
  rfl

theorem get_var {σ : Nat → Lane} (hσ : ∀ i, i < w → LaneTyped ts nm (σ i)) {k : Nat} (hk : k < ts.length) :
    ∃ f : Nat → Int, (∀ i, i < w → (σ i).1[k]? = some (f i)) ∧ get (packV w ts.length σ) k = .ok ((List.range w).map f) := by
  obtain ⟨f, hf⟩ := choose_below (P := fun i (x : Int) => (σ i).1[k]? = some x) fun i hi =>
    ⟨_, List.getElem?_eq_getElem (show k < (σ i).1.length by rw [(hσ i hi).vars]; exact hk)⟩
  exact ⟨f, hf, get_packV hk hf⟩

theorem set_self {l : Lane} {k : Nat} {x : Int} (h : l.1[k]? = some x) : (l.1.set k x, l.2) = l := by
  obtain ⟨h1, h2⟩ := List.getElem?_eq_some_iff.1 h
  rw [← h2, List.set_getElem_self]

theorem stepFn_not_trap (t : IntTy) (up : Bool) (a : Int) : stepFn t up a ≠ .trap := by
  rw [stepFn_eq]; exact eval_not_trap _ _ _ _

/-- What the run of a single masked or unmasked statement gives, if all lanes run. -/
theorem run_simple (hts : VarTypes ts) {σ τ : Nat → Lane} (hσ : ∀ i, i < w → LaneTyped ts nm (σ i)) {p : Stmt} (hp : Typed ts nm p)
    (hs : LoopFree p) (hq : ∀ a b, p ≠ .seq a b) (h : ∀ i, i < w → LaneRun p (σ i) (τ i)) (n : Nat) :
    p.run w n (pack w ts.length nm σ) = .ok (pack w ts.length nm τ) := by
  cases p with
  | skip =>
    unfold Stmt.run
    congr 1
    refine pack_congr fun i hi => ?_
    generalize hl : τ i = l
    have := h i hi
    rw [hl] at this
    cases this; rfl
  | seq a b => exact absurd rfl (hq a b)
  | loop m b => exact hs.elim
  | assign k e =>
    obtain ⟨t, hk, ht⟩ := hp
    obtain ⟨f, hf⟩ := choose_below (P := fun i (v : Int) => ExValue (σ i).1 e v ∧ τ i = ((σ i).1.set k v, (σ i).2)) fun i hi => by
      generalize hl : τ i = l
      have := h i hi
      rw [hl] at this
      cases this with | @assign _ _ v _ g => exact ⟨v, g, rfl⟩
    unfold Stmt.run
    exact set_ok hσ (lt_of_some hk) (ex_ok hts hσ ht fun i hi => (hf i hi).1) fun i hi => (hf i hi).2
  | compound t op k e =>
    obtain ⟨hk, ht⟩ := hp
    have hv := exTyped_valid hts ht
    obtain ⟨f, hf⟩ := choose_below (P := fun i (v : Int × Int × Int) => ExValue (σ i).1 e v.1 ∧ (σ i).1[k]? = some v.2.1 ∧
        op.eval t v.2.1 v.1 = .ok v.2.2 ∧ τ i = ((σ i).1.set k v.2.2, (σ i).2)) fun i hi => by
      generalize hl : τ i = l
      have := h i hi
      rw [hl] at this
      cases this with
      | @compound _ _ _ _ x y v _ g1 g2 g3 g4 =>
        exact ⟨(y, x, v), g1, g2, (op_ok hv ((hσ i hi).var _ _ _ hk g2) (exValue_has hts (hσ i hi).var ht g1) g3 g4).1, rfl⟩
    unfold Stmt.run
    simp only [pack]
    rw [ex_ok hts hσ ht fun i hi => (hf i hi).1, Outcome.bind_ok, get_packV (lt_of_some hk) fun i hi => (hf i hi).2.1, Outcome.bind_ok]
    refine set_ok hσ (lt_of_some hk) ((compound_lanes t op (fun i => (f i).2.1) (fun i => (f i).1) _ ?_).1 _ fun i hi => (hf i hi).2.2.1)
      fun i hi => (hf i hi).2.2.2
    split
    · rename_i he
      subst he
      refine .inr ⟨rfl, fun i hi => ?_⟩
      cases (hf i hi).1 with
      | var g => exact Option.some.inj (g.symm.trans (hf i hi).2.1)
    · exact .inl rfl
  | step t up k =>
    have hk : ts[k]? = some t := hp
    have hv := hts _ (List.mem_of_getElem? hk)
    obtain ⟨f, hf⟩ := choose_below (P := fun i (v : Int × Int) => (σ i).1[k]? = some v.1 ∧
        stepFn t up v.1 = .ok v.2 ∧ τ i = ((σ i).1.set k v.2, (σ i).2)) fun i hi => by
      generalize hl : τ i = l
      have := h i hi
      rw [hl] at this
      cases this with
      | @step _ _ _ x v _ g2 g3 g4 =>
        exact ⟨(x, v), g2, (stepFn_eq t up x).trans (op_ok hv.1 ((hσ i hi).var _ _ _ hk g2) (has_one hv.2) g3 g4).1, rfl⟩
    unfold Stmt.run
    simp only [pack]
    rw [get_packV (lt_of_some hk) fun i hi => (hf i hi).1, Outcome.bind_ok]
    exact set_ok hσ (lt_of_some hk) ((preStep_lanes (stepFn_not_trap t up) fun i => (f i).1).1 _ fun i hi => (hf i hi).2.1)
      fun i hi => (hf i hi).2.2
  | whereAssign m k e =>
    obtain ⟨hm, t, hk, ht⟩ := hp
    obtain ⟨x, hx, hgx⟩ := get_var hσ (lt_of_some hk)
    obtain ⟨f, hf⟩ := choose_below (P := fun i (v : Bool × Int) => MkValue (σ i) m v.1 ∧ ExValue (σ i).1 e v.2 ∧
        τ i = ((σ i).1.set k (if v.1 then v.2 else x i), (σ i).2)) fun i hi => by
      generalize hl : τ i = l
      have := h i hi
      rw [hl] at this
      cases this with
      | @where_true _ _ _ v _ g1 g2 => exact ⟨(true, v), g1, g2, rfl⟩
      | @where_false _ _ _ v _ g1 g2 => exact ⟨(false, v), g1, g2, (set_self (hx i hi)).symm⟩
    unfold Stmt.run
    rw [mk_ok hts hσ hm fun i hi => (hf i hi).1, Outcome.bind_ok]
    simp only [pack]
    rw [ex_ok hts hσ ht fun i hi => (hf i hi).2.1, Outcome.bind_ok, hgx, Outcome.bind_ok]
    exact set_ok hσ (lt_of_some hk) (whereAssign_map w (fun i => (f i).1) x fun i => (f i).2) fun i hi => (hf i hi).2.2
  | whereCompound t op m k e =>
    obtain ⟨hm, hk, ht⟩ := hp
    have hv := exTyped_valid hts ht
    obtain ⟨x, hx, hgx⟩ := get_var hσ (lt_of_some hk)
    obtain ⟨f, hf⟩ := choose_below (P := fun i (v : Bool × Int × Int) => MkValue (σ i) m v.1 ∧ ExValue (σ i).1 e v.2.1 ∧
        (if v.1 then op.eval t (x i) v.2.1 else .ok (x i)) = .ok v.2.2 ∧
        τ i = ((σ i).1.set k v.2.2, (σ i).2)) fun i hi => by
      generalize hl : τ i = l
      have := h i hi
      rw [hl] at this
      cases this with
      | @whereCompound_true _ _ _ _ _ x' y v _ g0 g1 g2 g3 g4 =>
        have : x i = x' := Option.some.inj ((hx i hi).symm.trans g2)
        subst this
        exact ⟨(true, y, v), g0, g1, (op_ok hv ((hσ i hi).var _ _ _ hk g2) (exValue_has hts (hσ i hi).var ht g1) g3 g4).1, rfl⟩
      | @whereCompound_false _ _ _ _ _ y _ g0 g1 => exact ⟨(false, y, x i), g0, g1, rfl, (set_self (hx i hi)).symm⟩
    unfold Stmt.run
    rw [mk_ok hts hσ hm fun i hi => (hf i hi).1, Outcome.bind_ok]
    simp only [pack]
    rw [ex_ok hts hσ ht fun i hi => (hf i hi).2.1, Outcome.bind_ok, hgx, Outcome.bind_ok]
    refine set_ok hσ (lt_of_some hk) ((masked_lanes (H := fun i a => op.eval t a (f i).2.1) (fun _ _ => eval_not_trap _ _ _ _)
      (fun i a hi => ?_) (fun i => (f i).1) x).1 _ fun i hi => (hf i hi).2.2.1) fun i hi => (hf i hi).2.2.2
    rw [at'_map hi]; rfl
  | whereStep t up m k =>
    obtain ⟨hm, hk⟩ := hp
    have hv := hts _ (List.mem_of_getElem? hk)
    obtain ⟨x, hx, hgx⟩ := get_var hσ (lt_of_some hk)
    obtain ⟨f, hf⟩ := choose_below (P := fun i (v : Bool × Int) => MkValue (σ i) m v.1 ∧
        (if v.1 then stepFn t up (x i) else .ok (x i)) = .ok v.2 ∧
        τ i = ((σ i).1.set k v.2, (σ i).2)) fun i hi => by
      generalize hl : τ i = l
      have := h i hi
      rw [hl] at this
      cases this with
      | @whereStep_true _ _ _ _ x' v _ g0 g2 g3 g4 =>
        have : x i = x' := Option.some.inj ((hx i hi).symm.trans g2)
        subst this
        exact ⟨(true, v), g0, (stepFn_eq t up _).trans (op_ok hv.1 ((hσ i hi).var _ _ _ hk g2) (has_one hv.2) g3 g4).1, rfl⟩
      | @whereStep_false _ _ _ _ _ g0 => exact ⟨(false, x i), g0, rfl, (set_self (hx i hi)).symm⟩
    unfold Stmt.run
    rw [mk_ok hts hσ hm fun i hi => (hf i hi).1, Outcome.bind_ok]
    simp only [pack]
    rw [hgx, Outcome.bind_ok]
    exact set_ok hσ (lt_of_some hk) ((masked_lanes (H := fun _ a => stepFn t up a) (fun _ => stepFn_not_trap t up)
      (fun i a hi => rfl) (fun i => (f i).1) x).1 _ fun i hi => (hf i hi).2.1) fun i hi => (hf i hi).2.2
  | setMask j m =>
    obtain ⟨hj, hm⟩ := hp
    obtain ⟨f, hf⟩ := choose_below (P := fun i (b : Bool) => MkValue (σ i) m b ∧ τ i = ((σ i).1, (σ i).2.set j b)) fun i hi => by
      generalize hl : τ i = l
      have := h i hi
      rw [hl] at this
      cases this with | @setMask _ _ b _ g => exact ⟨b, g, rfl⟩
    unfold Stmt.run
    rw [mk_ok hts hσ hm fun i hi => (hf i hi).1, Outcome.bind_ok]
    simp only [pack]
    rw [packM_set (fun i hi => (hσ i hi).masks) hj]
    have := pack_congr (nv := ts.length) (nm := nm) fun i hi => (hf i hi).2
    unfold pack at this
    rw [this]
    rfl

/-! ### loops -/

/-- A lane leaves the loop after `c` iterations. -/
def IterLane (m : Mk) (body : Stmt) : Nat → Lane → Lane → Prop
  | 0, l, l' => MkValue l m false ∧ LaneRun body l l ∧ l' = l
  | c + 1, l, l'' => MkValue l m true ∧ ∃ l', LaneRun body l l' ∧ IterLane m body c l' l''

theorem iterLane_of {m : Mk} {body : Stmt} {l l' : Lane} (h : LaneRun (.loop m body) l l') : ∃ c, IterLane m body c l l' := by
  generalize hp : Stmt.loop m body = p at h
  induction h with
  | loop_more h1 h2 _ _ ih =>
    cases hp
    obtain ⟨c, hc⟩ := ih rfl
    exact ⟨c + 1, h1, _, h2, hc⟩
  | loop_done h1 h2 _ => cases hp; exact ⟨0, h1, h2, rfl⟩
  | _ => cases hp

theorem bound_below {P : Nat → Nat → Prop} (w : Nat) (h : ∀ i, i < w → ∃ c, P i c) : ∃ C, ∀ i, i < w → ∃ c, c ≤ C ∧ P i c := by
  induction w with
  | zero => exact ⟨0, fun i hi => by omega⟩
  | succ w ih =>
    obtain ⟨C, hC⟩ := ih fun i hi => h i (by omega)
    obtain ⟨c, hc⟩ := h w (by omega)
    refine ⟨C + c, fun i hi => ?_⟩
    by_cases hw : i = w
    · subst hw; exact ⟨c, by omega, hc⟩
    · obtain ⟨c', h1, h2⟩ := hC i (by omega)
      exact ⟨c', by omega, h2⟩

theorem run_loop (hts : VarTypes ts) {m : Mk} {body : Stmt} (hp : Typed ts nm (.loop m body)) {τ : Nat → Lane}
    (hb : ∀ σ τ : Nat → Lane, (∀ i, i < w → LaneTyped ts nm (σ i)) → (∀ i, i < w → LaneRun body (σ i) (τ i)) →
      ∃ N, ∀ n, N ≤ n → body.run w n (pack w ts.length nm σ) = .ok (pack w ts.length nm τ)) (C : Nat) :
    ∀ σ : Nat → Lane, (∀ i, i < w → LaneTyped ts nm (σ i)) → (∀ i, i < w → ∃ c, c ≤ C ∧ IterLane m body c (σ i) (τ i)) →
      ∃ N, ∀ n f, N ≤ n → N ≤ f → iter (fun s => do let b ← m.simd w s; Simd.anyOf b) (body.run w n) f (pack w ts.length nm σ) =
        .ok (pack w ts.length nm τ) := by
  have hcond : ∀ (σ : Nat → Lane) (b : Nat → Bool), (∀ i, i < w → LaneTyped ts nm (σ i)) → (∀ i, i < w → MkValue (σ i) m (b i)) →
      (do let b ← m.simd w (pack w ts.length nm σ); Simd.anyOf b) = Outcome.ok (decide (true ∈ (List.range w).map b)) := by
    intro σ b hσ hbv
    rw [mk_ok hts hσ hp.1 hbv, Outcome.bind_ok, anyOf_eq]
  have hdone : ∀ (σ : Nat → Lane), (∀ i, i < w → LaneTyped ts nm (σ i)) → (∀ i, i < w → IterLane m body 0 (σ i) (τ i)) →
      ∃ N, ∀ n f, N ≤ n → N ≤ f → iter (fun s => do let b ← m.simd w s; Simd.anyOf b) (body.run w n) f (pack w ts.length nm σ) =
        .ok (pack w ts.length nm τ) := by
    intro σ hσ h
    refine ⟨1, fun n f _ hf => ?_⟩
    obtain ⟨f, rfl⟩ : ∃ g, f = g + 1 := ⟨f - 1, by omega⟩
    unfold iter
    rw [hcond σ (fun _ => false) hσ fun i hi => (h i hi).1, Outcome.bind_ok, if_neg (by simp)]
    congr 1
    exact pack_congr fun i hi => (h i hi).2.2.symm
  induction C with
  | zero =>
    intro σ hσ h
    exact hdone σ hσ fun i hi => by
      obtain ⟨c, hc, hi'⟩ := h i hi
      obtain rfl : c = 0 := by omega
      exact hi'
  | succ C ih =>
    intro σ hσ h
    by_cases hall : ∀ i, i < w → IterLane m body 0 (σ i) (τ i)
    · exact hdone σ hσ hall
    · obtain ⟨q, hq⟩ := choose_below (P := fun i (q : Bool × Lane) => MkValue (σ i) m q.1 ∧ LaneRun body (σ i) q.2 ∧
          (q.1 = false → IterLane m body 0 (σ i) (τ i)) ∧ ∃ c, c ≤ C ∧ IterLane m body c q.2 (τ i)) fun i hi => by
        obtain ⟨c, hc, hi'⟩ := h i hi
        cases c with
        | zero =>
          refine ⟨(false, σ i), hi'.1, hi'.2.1, fun _ => hi', 0, Nat.zero_le _, hi'⟩
        | succ c =>
          obtain ⟨g1, l', g2, g3⟩ := hi'
          exact ⟨(true, l'), g1, g2, fun h => absurd h (by simp), c, by omega, g3⟩
      obtain ⟨i, hi, hni⟩ : ∃ i, i < w ∧ (q i).1 = true := by
        by_contra hn
        refine hall fun i hi => (hq i hi).2.2.1 ?_
        cases hqi : (q i).1 with
        | false => rfl
        | true => exact absurd ⟨i, hi, hqi⟩ hn
      obtain ⟨N1, hN1⟩ := hb σ (fun i => (q i).2) hσ fun i hi => (hq i hi).2.1
      obtain ⟨N2, hN2⟩ := ih (fun i => (q i).2) (fun i hi => laneRun_typed hts (hq i hi).2.1 hp.2 (hσ i hi))
        fun i hi => (hq i hi).2.2.2
      refine ⟨N1 + N2 + 1, fun n f hn hf => ?_⟩
      obtain ⟨f, rfl⟩ : ∃ g, f = g + 1 := ⟨f - 1, by omega⟩
      unfold iter
      rw [hcond σ (fun i => (q i).1) hσ fun i hi => (hq i hi).1, Outcome.bind_ok, if_pos (by
        simp only [decide_eq_true_eq, List.mem_map, List.mem_range]
        exact ⟨i, hi, hni⟩), hN1 n (by omega), Outcome.bind_ok]
      exact hN2 n f (by omega) (by omega)

theorem run_lanes (hts : VarTypes ts) {p : Stmt} (hp : Typed ts nm p) : ∀ σ τ : Nat → Lane,
    (∀ i, i < w → LaneTyped ts nm (σ i)) → (∀ i, i < w → LaneRun p (σ i) (τ i)) →
      ∃ N, ∀ n, N ≤ n → p.run w n (pack w ts.length nm σ) = .ok (pack w ts.length nm τ) := by
  induction p with
  | seq a b iha ihb =>
    intro σ τ hσ h
    obtain ⟨q, hq⟩ := choose_below (P := fun i (q : Lane) => LaneRun a (σ i) q ∧ LaneRun b q (τ i)) fun i hi => by
      cases h i hi with | seq g1 g2 => exact ⟨_, g1, g2⟩
    obtain ⟨N1, h1⟩ := iha hp.1 σ q hσ fun i hi => (hq i hi).1
    obtain ⟨N2, h2⟩ := ihb hp.2 q τ (fun i hi => laneRun_typed hts (hq i hi).1 hp.1 (hσ i hi)) fun i hi => (hq i hi).2
    refine ⟨N1 + N2, fun n hn => ?_⟩
    unfold Stmt.run
    rw [h1 n (by omega), Outcome.bind_ok, h2 n (by omega)]
  | loop m body ih =>
    intro σ τ hσ h
    obtain ⟨C, hC⟩ := bound_below w fun i hi => iterLane_of (h i hi)
    obtain ⟨N, hN⟩ := run_loop hts hp (ih hp.2) C σ hσ hC
    exact ⟨N, fun n hn => by unfold Stmt.run; exact hN n n hn hn⟩
  | _ =>
    intro σ τ hσ h
    exact ⟨0, fun n _ => run_simple hts hσ hp trivial (fun _ _ h => by cases h) h n⟩

/-! ### loop-free programs: a lane that does not run -/

theorem run_fuel {p : Stmt} (hl : LoopFree p) (n n' : Nat) (s : State) : p.run w n s = p.run w n' s := by
  induction p generalizing s with
  | seq a b iha ihb =>
    unfold Stmt.run
    rw [iha hl.1 s]
    congr 1
    funext s'
    exact ihb hl.2 s'
  | loop => exact hl.elim
  | _ => rfl

theorem eval_exists {t : IntTy} (hv : ValidTy t) {op : BinOp} {x y : Int} (hx : t.Has x) (hy : t.Has y)
    (h : ∀ u, op.eval t x y ≠ .ub u) : ∃ v, ¬ IsUndefined t op x y ∧ IsResult t op x y v := by
  by_cases hd : IsUndefined t op x y
  · obtain ⟨u, hu⟩ := eval_ub t hv op x y hx (fun _ _ => hy) hd
    exact absurd hu (h u)
  · obtain ⟨r, _, c2, _⟩ := eval_spec t hv op x y hx (fun _ _ => hy) hd
    exact ⟨r, hd, c2⟩

theorem run_ub (hts : VarTypes ts) {p : Stmt} (hp : Typed ts nm p) (hl : LoopFree p) : ∀ σ : Nat → Lane,
    (∀ i, i < w → LaneTyped ts nm (σ i)) → (∃ i, i < w ∧ ∀ l, ¬ LaneRun p (σ i) l) → ∀ n,
      ∃ u, p.run w n (pack w ts.length nm σ) = .ub u := by
  induction p with
  | skip => rintro σ hσ ⟨i, _, h⟩; exact absurd .skip (h _)
  | loop => exact hl.elim
  | seq a b iha ihb =>
    intro σ hσ h n
    unfold Stmt.run
    by_cases hA : ∀ i, i < w → ∃ l, LaneRun a (σ i) l
    · obtain ⟨τ, hτ⟩ := choose_below hA
      obtain ⟨N, hN⟩ := run_lanes hts hp.1 σ τ hσ hτ
      rw [run_fuel hl.1 n N, hN N (Nat.le_refl _), Outcome.bind_ok]
      refine ihb hp.2 hl.2 τ (fun i hi => laneRun_typed hts (hτ i hi) hp.1 (hσ i hi)) ?_ n
      obtain ⟨i, hi, h⟩ := h
      exact ⟨i, hi, fun l hl => h l (.seq (hτ i hi) hl)⟩
    · obtain ⟨u, hu⟩ := iha hp.1 hl.1 σ hσ (not_all hA) n
      rw [hu]; exact ⟨u, rfl⟩
  | assign k e =>
    rintro σ hσ ⟨i, hi, h⟩ n
    obtain ⟨t, hk, ht⟩ := hp
    obtain ⟨u, hu⟩ := ex_ub hts hσ ht ⟨i, hi, fun v hv => h _ (.assign hv)⟩
    unfold Stmt.run
    simp only [pack]
    rw [hu]; exact ⟨u, rfl⟩
  | compound t op k e =>
    rintro σ hσ h n
    obtain ⟨hk, ht⟩ := hp
    have hv := exTyped_valid hts ht
    obtain ⟨x, hx, hgx⟩ := get_var hσ (lt_of_some hk)
    unfold Stmt.run
    simp only [pack]
    by_cases hA : ∀ i, i < w → ∃ v, ExValue (σ i).1 e v
    · obtain ⟨f, hf⟩ := choose_below hA
      rw [ex_ok hts hσ ht hf, Outcome.bind_ok, hgx, Outcome.bind_ok]
      obtain ⟨u, hu⟩ := (compound_lanes (w := w) t op x f (if e = .var k then none else some ((List.range w).map f)) (by
        split
        · rename_i he
          subst he
          refine .inr ⟨rfl, fun i hi => ?_⟩
          cases hf i hi with | var g => exact Option.some.inj (g.symm.trans (hx i hi))
        · exact .inl rfl)).2 (by
          obtain ⟨i, hi, h⟩ := h
          refine ⟨i, hi, ?_⟩
          by_contra hn
          obtain ⟨v, h1, h2⟩ := eval_exists hv ((hσ i hi).var _ _ _ hk (hx i hi)) (exValue_has hts (hσ i hi).var ht (hf i hi))
            fun u hu => hn ⟨u, hu⟩
          exact h _ (.compound (hf i hi) (hx i hi) h1 h2))
      rw [hu]; exact ⟨u, rfl⟩
    · obtain ⟨u, hu⟩ := ex_ub hts hσ ht (not_all hA)
      rw [hu]; exact ⟨u, rfl⟩
  | step t up k =>
    rintro σ hσ h n
    have hk : ts[k]? = some t := hp
    have hv := hts _ (List.mem_of_getElem? hk)
    obtain ⟨x, hx, hgx⟩ := get_var hσ (lt_of_some hk)
    unfold Stmt.run
    simp only [pack]
    rw [hgx, Outcome.bind_ok]
    obtain ⟨u, hu⟩ := (preStep_lanes (w := w) (stepFn_not_trap t up) x).2 (by
      obtain ⟨i, hi, h⟩ := h
      refine ⟨i, hi, ?_⟩
      by_contra hn
      obtain ⟨v, h1, h2⟩ := eval_exists (op := stepOp up) hv.1 ((hσ i hi).var _ _ _ hk (hx i hi)) (has_one hv.2)
        fun u hu => hn ⟨u, (stepFn_eq t up _).trans hu⟩
      exact h _ (.step (hx i hi) h1 h2))
    rw [hu]; exact ⟨u, rfl⟩
  | whereAssign m k e =>
    rintro σ hσ h n
    obtain ⟨hm, t, hk, ht⟩ := hp
    unfold Stmt.run
    by_cases hM : ∀ i, i < w → ∃ b, MkValue (σ i) m b
    · obtain ⟨b, hb⟩ := choose_below hM
      rw [mk_ok hts hσ hm hb, Outcome.bind_ok]
      simp only [pack]
      obtain ⟨u, hu⟩ := ex_ub hts hσ ht (by
        obtain ⟨i, hi, h⟩ := h
        refine ⟨i, hi, fun v hv => ?_⟩
        cases hbi : b i with
        | true => exact h _ (.where_true (hbi ▸ hb i hi) hv)
        | false => exact h _ (.where_false (hbi ▸ hb i hi) hv))
      rw [hu]; exact ⟨u, rfl⟩
    · obtain ⟨u, hu⟩ := mk_ub hts hσ hm (not_all hM)
      rw [hu]; exact ⟨u, rfl⟩
  | whereCompound t op m k e =>
    rintro σ hσ h n
    obtain ⟨hm, hk, ht⟩ := hp
    have hv := exTyped_valid hts ht
    obtain ⟨x, hx, hgx⟩ := get_var hσ (lt_of_some hk)
    unfold Stmt.run
    by_cases hM : ∀ i, i < w → ∃ b, MkValue (σ i) m b
    · obtain ⟨b, hb⟩ := choose_below hM
      rw [mk_ok hts hσ hm hb, Outcome.bind_ok]
      simp only [pack]
      by_cases hA : ∀ i, i < w → ∃ v, ExValue (σ i).1 e v
      · obtain ⟨f, hf⟩ := choose_below hA
        rw [ex_ok hts hσ ht hf, Outcome.bind_ok, hgx, Outcome.bind_ok]
        obtain ⟨u, hu⟩ := (masked_lanes (w := w) (G := fun i x => do op.eval t x (← at' ((List.range w).map f) i))
          (H := fun i a => op.eval t a (f i)) (fun _ _ => eval_not_trap _ _ _ _)
          (fun i a hi => by rw [at'_map hi]; rfl) b x).2 (by
            obtain ⟨i, hi, h⟩ := h
            refine ⟨i, hi, ?_⟩
            cases hbi : b i with
            | false => exact absurd (.whereCompound_false (hbi ▸ hb i hi) (hf i hi)) (h _)
            | true =>
              by_contra hn
              obtain ⟨v, h1, h2⟩ := eval_exists hv ((hσ i hi).var _ _ _ hk (hx i hi)) (exValue_has hts (hσ i hi).var ht (hf i hi))
                fun u hu => hn ⟨u, by simp only [hbi]; exact hu⟩
              exact h _ (.whereCompound_true (hbi ▸ hb i hi) (hf i hi) (hx i hi) h1 h2))
        unfold whereOpAssign
        rw [hu]; exact ⟨u, rfl⟩
      · obtain ⟨u, hu⟩ := ex_ub hts hσ ht (not_all hA)
        rw [hu]; exact ⟨u, rfl⟩
    · obtain ⟨u, hu⟩ := mk_ub hts hσ hm (not_all hM)
      rw [hu]; exact ⟨u, rfl⟩
  | whereStep t up m k =>
    rintro σ hσ h n
    obtain ⟨hm, hk⟩ := hp
    have hv := hts _ (List.mem_of_getElem? hk)
    obtain ⟨x, hx, hgx⟩ := get_var hσ (lt_of_some hk)
    unfold Stmt.run
    by_cases hM : ∀ i, i < w → ∃ b, MkValue (σ i) m b
    · obtain ⟨b, hb⟩ := choose_below hM
      rw [mk_ok hts hσ hm hb, Outcome.bind_ok]
      simp only [pack]
      rw [hgx, Outcome.bind_ok]
      obtain ⟨u, hu⟩ := (masked_lanes (w := w) (G := fun _ x => stepFn t up x)
        (H := fun _ a => stepFn t up a) (fun _ => stepFn_not_trap t up) (fun i a hi => rfl) b x).2 (by
          obtain ⟨i, hi, h⟩ := h
          refine ⟨i, hi, ?_⟩
          cases hbi : b i with
          | false => exact absurd (.whereStep_false (hbi ▸ hb i hi)) (h _)
          | true =>
            by_contra hn
            obtain ⟨v, h1, h2⟩ := eval_exists (op := stepOp up) hv.1 ((hσ i hi).var _ _ _ hk (hx i hi)) (has_one hv.2)
              fun u hu => hn ⟨u, by simp only [hbi]; exact (stepFn_eq t up _).trans hu⟩
            exact h _ (.whereStep_true (hbi ▸ hb i hi) (hx i hi) h1 h2))
      unfold whereIncDec
      rw [hu]; exact ⟨u, rfl⟩
    · obtain ⟨u, hu⟩ := mk_ub hts hσ hm (not_all hM)
      rw [hu]; exact ⟨u, rfl⟩
  | setMask j m =>
    rintro σ hσ ⟨i, hi, h⟩ n
    obtain ⟨hj, hm⟩ := hp
    obtain ⟨u, hu⟩ := mk_ub hts hσ hm ⟨i, hi, fun v hv => h _ (.setMask hv)⟩
    unfold Stmt.run
    rw [hu]; exact ⟨u, rfl⟩

/-! ### states of a shape -/

theorem filterMap_lane {α : Type} {xs : List (List α)} {i : Nat} (h : ∀ x ∈ xs, i < x.length) (k : Nat) :
    (xs.filterMap (·[i]?))[k]? = (xs[k]?).bind (·[i]?) ∧ (xs.filterMap (·[i]?)).length = xs.length := by
  induction xs generalizing k with
  | nil => simp
  | cons x xs ih =>
    have hx : x[i]? = some (x[i]'(h x (by simp))) := List.getElem?_eq_getElem _
    have ih := ih fun y hy => h y (by simp [hy])
    rw [List.filterMap_cons_some (f := (·[i]?)) hx]
    refine ⟨?_, by simpa using (ih 0).2⟩
    cases k with
    | zero => simp
    | succ k => simpa using (ih k).1

theorem shape_len {s : State} (hs : HasShape ts nm w s) : ∀ x ∈ s.vars, x.length = w := by
  intro x hx
  obtain ⟨k, hk, rfl⟩ := List.getElem_of_mem hx
  exact (hs.var k (ts[k]'(by rw [← hs.vars]; exact hk)) _ (List.getElem?_eq_getElem _) (List.getElem?_eq_getElem _)).1

theorem laneOf_typed {s : State} (hs : HasShape ts nm w s) {i : Nat} (hi : i < w) : LaneTyped ts nm (laneOf s i) := by
  have hl := shape_len hs
  have h1 := fun k => filterMap_lane (i := i) (xs := s.vars) (fun x hx => by rw [hl x hx]; exact hi) k
  have h2 := filterMap_lane (i := i) (xs := s.masks) (fun x hx => by rw [hs.mask x hx]; exact hi) 0
  refine ⟨(h1 0).2.trans hs.vars, fun k t x hk hx => ?_, h2.2.trans hs.masks⟩
  unfold laneOf at hx
  simp only [(h1 k).1] at hx
  cases hv : s.vars[k]? with
  | none => simp [hv] at hx
  | some v =>
    simp only [hv, Option.bind_some] at hx
    exact (hs.var k t v hk hv).2 x (List.mem_of_getElem? hx)

theorem pack_laneOf {s : State} (hs : HasShape ts nm w s) : pack w ts.length nm (laneOf s) = s := by
  have hl := shape_len hs
  cases s with
  | mk vars masks =>
    unfold pack
    congr 1
    · apply List.ext_getElem (by simpa [packV] using hs.vars.symm)
      intro k h1 h2
      have hk : vars[k]? = some vars[k] := List.getElem?_eq_getElem h2
      have hkl := hl _ (List.getElem_mem h2)
      simp only [packV, List.getElem_map, List.getElem_range]
      apply List.ext_getElem (by simpa using hkl.symm)
      intro i g1 g2
      simp only [List.length_map, List.length_range] at g1
      simp only [List.getElem_map, List.getElem_range]
      apply getD_eq
      unfold laneOf
      rw [(filterMap_lane (i := i) (xs := vars) (fun x hx => by rw [hl x hx]; exact g1) k).1, hk]
      simp [g2]
    · apply List.ext_getElem (by simpa [packM] using hs.masks.symm)
      intro k h1 h2
      have hk : masks[k]? = some masks[k] := List.getElem?_eq_getElem h2
      have hkl := hs.mask _ (List.getElem_mem h2)
      simp only [packM, List.getElem_map, List.getElem_range]
      apply List.ext_getElem (by simpa using hkl.symm)
      intro i g1 g2
      simp only [List.length_map, List.length_range] at g1
      simp only [List.getElem_map, List.getElem_range]
      apply getD_eq
      unfold laneOf
      rw [(filterMap_lane (i := i) (xs := masks) (fun x hx => by rw [hs.mask x hx]; exact g1) k).1, hk]
      simp [g2]

theorem laneOf_pack {τ : Nat → Lane} (hτ : ∀ i, i < w → LaneTyped ts nm (τ i)) {i : Nat} (hi : i < w) :
    laneOf (pack w ts.length nm τ) i = τ i := by
  have h1 := fun k => filterMap_lane (i := i) (xs := packV w ts.length τ) (fun x hx => by
    simp only [packV, List.mem_map] at hx
    obtain ⟨_, _, rfl⟩ := hx
    simpa using hi) k
  have h2 := fun k => filterMap_lane (i := i) (xs := packM w nm τ) (fun x hx => by
    simp only [packM, List.mem_map] at hx
    obtain ⟨_, _, rfl⟩ := hx
    simpa using hi) k
  unfold laneOf pack
  apply Prod.ext
  · apply List.ext_getElem ((h1 0).2.trans (by simp [packV, (hτ i hi).vars]))
    intro k g1 g2
    apply Option.some.inj
    rw [← List.getElem?_eq_getElem, ← List.getElem?_eq_getElem, (h1 k).1]
    have hk : k < ts.length := by rw [← (hτ i hi).vars]; exact g2
    simp only [packV, List.getElem?_map, List.getElem?_range hk, Option.map_some, Option.bind_some, List.getElem?_range hi]
    rw [List.getD_eq_getElem?_getD, List.getElem?_eq_getElem g2]; rfl
  · apply List.ext_getElem ((h2 0).2.trans (by simp [packM, (hτ i hi).masks]))
    intro k g1 g2
    apply Option.some.inj
    rw [← List.getElem?_eq_getElem, ← List.getElem?_eq_getElem, (h2 k).1]
    have hk : k < nm := by rw [← (hτ i hi).masks]; exact g2
    simp only [packM, List.getElem?_map, List.getElem?_range hk, Option.map_some, Option.bind_some, List.getElem?_range hi]
    rw [List.getD_eq_getElem?_getD, List.getElem?_eq_getElem g2]; rfl

theorem pack_shape {τ : Nat → Lane} (hτ : ∀ i, i < w → LaneTyped ts nm (τ i)) : HasShape ts nm w (pack w ts.length nm τ) := by
  refine ⟨by simp [pack, packV], fun k t x hk hx => ?_, by simp [pack, packM], fun b hb => ?_⟩
  · have hkl := lt_of_some hk
    simp only [pack, packV, List.getElem?_map, List.getElem?_range hkl, Option.map_some, Option.some.injEq] at hx
    subst hx
    refine ⟨by simp, fun a ha => ?_⟩
    simp only [List.mem_map, List.mem_range] at ha
    obtain ⟨i, hi, rfl⟩ := ha
    have hl : k < (τ i).1.length := by rw [(hτ i hi).vars]; exact hkl
    rw [getD_eq (List.getElem?_eq_getElem hl)]
    exact (hτ i hi).var k t _ hk (List.getElem?_eq_getElem hl)
  · simp only [pack, packM, List.mem_map] at hb
    obtain ⟨_, _, rfl⟩ := hb
    simp

/-! ### from the simd program to the lanes -/

theorem laneSteps_typed (hts : VarTypes ts) {I : Prop} {p : Stmt} {l l' : Lane} (h : LaneSteps I p l l') : Typed ts nm p →
    LaneTyped ts nm l → LaneTyped ts nm l' := by
  induction h with
  | simple _ h => exact laneRun_typed hts h
  | seq _ _ iha ihb => intro hp h; exact ihb hp.2 (iha hp.1 h)
  | again _ _ _ _ iha ihb => intro hp h; exact ihb hp (iha hp.2 h)
  | leave => intro _ h; exact h

theorem simple_sound (hts : VarTypes ts) {p : Stmt} (hp : Typed ts nm p) (hl : LoopFree p) (hq : ∀ a b, p ≠ .seq a b) {σ : Nat → Lane}
    (hσ : ∀ i, i < w → LaneTyped ts nm (σ i)) {n : Nat} {s : State} (h : p.run w n (pack w ts.length nm σ) = .ok s) :
    ∃ τ, s = pack w ts.length nm τ ∧ ∀ i, i < w → LaneSteps True p (σ i) (τ i) := by
  by_cases ha : ∀ i, i < w → ∃ l, LaneRun p (σ i) l
  · obtain ⟨τ, hτ⟩ := choose_below ha
    rw [run_simple hts hσ hp hl hq hτ n] at h
    exact ⟨τ, (Outcome.ok.inj h).symm, fun i hi => .simple hl (hτ i hi)⟩
  · obtain ⟨u, hu⟩ := run_ub hts hp hl σ hσ (not_all ha) n
    rw [hu] at h
    cases h

theorem run_sound (hts : VarTypes ts) {p : Stmt} (hp : Typed ts nm p) (n : Nat) : ∀ (σ : Nat → Lane) (s : State),
    (∀ i, i < w → LaneTyped ts nm (σ i)) → p.run w n (pack w ts.length nm σ) = .ok s →
      ∃ τ, s = pack w ts.length nm τ ∧ ∀ i, i < w → LaneSteps True p (σ i) (τ i) := by
  induction p with
  | seq a b iha ihb =>
    intro σ s hσ h
    unfold Stmt.run at h
    cases hA : a.run w n (pack w ts.length nm σ) with
    | ok s1 =>
      rw [hA, Outcome.bind_ok] at h
      obtain ⟨τ, rfl, hτ⟩ := iha hp.1 σ s1 hσ hA
      obtain ⟨ρ, rfl, hρ⟩ := ihb hp.2 τ s (fun i hi => laneSteps_typed hts (hτ i hi) hp.1 (hσ i hi)) h
      exact ⟨ρ, rfl, fun i hi => .seq (hτ i hi) (hρ i hi)⟩
    | ub u => rw [hA] at h; cases h
    | trap => rw [hA] at h; cases h
  | loop m body ih =>
    intro σ s hσ h
    unfold Stmt.run at h
    generalize hf : n = f at h
    have hcond : ∀ σ : Nat → Lane, (∀ i, i < w → LaneTyped ts nm (σ i)) →
        (∃ b : Nat → Bool, (∀ i, i < w → MkValue (σ i) m (b i)) ∧
          (do let b ← m.simd w (pack w ts.length nm σ); Simd.anyOf b) = Outcome.ok (decide (true ∈ (List.range w).map b))) ∨
        ∃ u, (do let b ← m.simd w (pack w ts.length nm σ); Simd.anyOf b) = Outcome.ub u := by
      intro σ hσ
      by_cases ha : ∀ i, i < w → ∃ b, MkValue (σ i) m b
      · obtain ⟨b, hb⟩ := choose_below ha
        refine .inl ⟨b, hb, ?_⟩
        rw [mk_ok hts hσ hp.1 hb, Outcome.bind_ok, anyOf_eq]
      · obtain ⟨u, hu⟩ := mk_ub hts hσ hp.1 (not_all ha)
        exact .inr ⟨u, by rw [hu]; rfl⟩
    rw [← hf] at h
    have key : ∀ (f : Nat) (σ : Nat → Lane), (∀ i, i < w → LaneTyped ts nm (σ i)) →
        iter (fun s => do let b ← m.simd w s; Simd.anyOf b) (body.run w n) f (pack w ts.length nm σ) = .ok s →
        ∃ τ, s = pack w ts.length nm τ ∧ ∀ i, i < w → LaneSteps True (.loop m body) (σ i) (τ i) := by
      intro f
      induction f with
      | zero => intro σ _ h; cases h
      | succ f ihf =>
        intro σ hσ h
        unfold iter at h
        rcases hcond σ hσ with ⟨b, hb, hc⟩ | ⟨u, hu⟩
        · rw [hc, Outcome.bind_ok] at h
          by_cases hany : true ∈ (List.range w).map b
          · rw [if_pos (by simpa using hany)] at h
            cases hB : body.run w n (pack w ts.length nm σ) with
            | ok s1 =>
              rw [hB, Outcome.bind_ok] at h
              obtain ⟨τ, rfl, hτ⟩ := ih hp.2 σ s1 hσ hB
              obtain ⟨ρ, rfl, hρ⟩ := ihf τ (fun i hi => laneSteps_typed hts (hτ i hi) hp.2 (hσ i hi)) h
              exact ⟨ρ, rfl, fun i hi => .again (hb i hi) (fun _ => trivial) (hτ i hi) (hρ i hi)⟩
            | ub u => rw [hB] at h; cases h
            | trap => rw [hB] at h; cases h
          · rw [if_neg (by simpa using hany)] at h
            refine ⟨σ, (Outcome.ok.inj h).symm, fun i hi => ?_⟩
            have : b i = false := by
              cases hbi : b i with
              | false => rfl
              | true => exact absurd (List.mem_map.2 ⟨i, List.mem_range.2 hi, hbi⟩) hany
            have hm := hb i hi
            rw [this] at hm
            exact .leave hm
        · rw [hu] at h; cases h
    exact key n σ hσ h
  | _ => intro σ s hσ h; exact simple_sound hts hp trivial (fun _ _ => by simp) hσ h

end Vir.SimdProg
