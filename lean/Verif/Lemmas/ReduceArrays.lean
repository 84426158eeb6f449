import Verif.Lemmas.ArrayAlgorithms
import Verif.Lemmas.ReduceRanges

/-! Lemmas about `transform_reduce` on arrays with different element types. -/

namespace Vir
open Spec ForEach

namespace TransformReduce
open Transform Eff

variable {σ α β τ : Type} {t : TEnv} {ops : ROps σ α β τ}

/-- A loader with the calls `transform_reduce` does not make removed. -/
noncomputable def guardL (t : TEnv) (ld : Loader σ β) : Loader σ β := fun aligned w p1 p2 =>
  open Classical in
  if 0 ≤ p1 ∧ p1 = p2 ∧ (aligned = true → alignedAt t.e p1 w = true) ∧ p1 + w ≤ t.n ∧ WidthOk t.e.size w then ld aligned w p1 p2
  else Eff.lift (.ub .uninit)

/-- The loads of `transform_reduce` are within the range, aligned where that is promised, and of the allowed widths. -/
theorem transformReduceL_congr {ops : ROps σ α β τ} {tr : σ → List (List α) → σ × Option (List β)}
    {sh : ∀ s w args r, args ≠ [] → (∀ a ∈ args, a.length = w) → (tr s args).2 = some r → r.length = w} {ld ld' : Loader σ β}
    (hok : ∀ (aligned : Bool) (p w : Nat), (aligned = true → alignedAt t.e (p : Int) w = true) → p + w ≤ t.n → WidthOk t.e.size w →
      ∀ s, ∃ s' v, ld aligned w (p : Int) (p : Int) s = .ok (s', v) ∧ ∀ x, v = some x → x.length = w)
    (heq : ∀ (aligned : Bool) (p w : Nat), (aligned = true → alignedAt t.e (p : Int) w = true) → p + w ≤ t.n → WidthOk t.e.size w →
      ld' aligned w (p : Int) (p : Int) = ld aligned w (p : Int) (p : Int))
    (init : τ)
    (htri : ∀ ld'' : Loader σ β, Prims (fun _ _ _ => True) (fun _ => True) (fun _ => False) t ops ld'' →
      Tri (fun _ _ _ => True) (fun _ => True) (fun _ => False) 0 0 t.n 0 (fun _ => True) (transformReduceL t ops ld'' init)) (s : σ) :
    transformReduceL t (withTrans ops tr sh) ld' init s = transformReduceL t ops ld init s := by
  have pr : Prims (fun _ _ _ => True) (fun _ => True) (fun _ => False) t ops (guardL t ld) := by
    refine ⟨?_, ?_, ?_, ?_⟩
    · intro aligned p w h1 h2 h3 _ s _
      have : guardL t ld aligned w (p : Int) (p : Int) = ld aligned w (p : Int) (p : Int) := by
        unfold guardL; rw [if_pos ⟨by omega, rfl, h1, by omega, h3⟩]
      rw [this]
      obtain ⟨s', v, h4, h5⟩ := hok aligned p w h1 h2 h3 s
      cases v with
      | none => exact Or.inr (Or.inl ⟨s', h4, trivial⟩)
      | some x => exact Or.inl ⟨s', x, h4, trivial, h5 x rfl⟩
    · intro p _ x y hl _ s _
      cases h : (ops.red s x y).2 with
      | none => exact Or.inr (Or.inl ⟨_, by simp only [redE, Eff.invoke]; rw [← h], trivial⟩)
      | some r => exact Or.inl ⟨_, r, by simp only [redE, Eff.invoke]; rw [← h], trivial, ops.redShape s x y r hl h⟩
    · intro p _ v _ _ s _
      cases h : (ops.hredT s v).2 with
      | none => exact Or.inr (Or.inl ⟨_, by simp only [hredTE, Eff.invoke]; rw [← h], trivial⟩)
      | some r => exact Or.inl ⟨_, r, by simp only [hredTE, Eff.invoke]; rw [← h], trivial, trivial⟩
    · intro p _ v _ _ s _
      cases h : (ops.hredB s v).2 with
      | none => exact Or.inr (Or.inl ⟨_, by simp only [hredBE, Eff.invoke]; rw [← h], trivial⟩)
      | some r => exact Or.inl ⟨_, r, by simp only [hredBE, Eff.invoke]; rw [← h], trivial, trivial⟩
  have le1 : LoaderLe (guardL t ld) ld := by
    intro aligned w p1 p2 s r hr
    unfold guardL at hr
    split at hr
    · exact hr
    · cases hr
  have le2 : LoaderLe (guardL t ld) ld' := by
    intro aligned w p1 p2 s r hr
    unfold guardL at hr
    split at hr
    · rename_i h
      obtain ⟨h0, rfl, h2, h3, h4⟩ := h
      obtain ⟨p, rfl⟩ := Int.eq_ofNat_of_zero_le h0
      rw [heq aligned p w h2 (by omega) h4]
      exact hr
    · cases hr
  have : ∃ r, transformReduceL t ops (guardL t ld) init s = .ok r := by
    rcases htri _ pr s trivial with ⟨s', a, h, _⟩ | ⟨s', h, _⟩ | ⟨_, _, h⟩
    · exact ⟨_, h⟩
    · exact ⟨_, h⟩
    · exact h.elim
  obtain ⟨r, hr⟩ := this
  rw [le_transformReduceL le1 init s r hr, le_transformReduceL' le2 init s r hr]

end TransformReduce

namespace TransformArrays
open Simdize ForEachStruct TransformReduce Transform

variable {σ α β τ γ : Type} {zero : α} {junk : Nat → α} {e : Env} {ins : List Range} {n : Nat} {arrays : List (List α)}

/-- The lanes of one argument in the order in which they are loaded. -/
def view (e : Env) (I : Range) (a : List γ) : List γ := if a.length ≤ e.size then reorder (I.F.env a.length) a else a

@[simp] theorem view_length (e : Env) (I : Range) (a : List γ) : (view e I a).length = a.length := by
  unfold view; split <;> simp

/-- ... of all arguments. -/
def viewArgs (e : Env) : List Range → List (List γ) → List (List γ)
  | I :: Is, a :: as => view e I a :: viewArgs e Is as
  | _, as => as

theorem viewArgs_length (Is : List Range) (as : List (List γ)) : (viewArgs e Is as).length = as.length := by
  induction Is generalizing as with
  | nil => cases as <;> rfl
  | cons I Is ih => cases as with
    | nil => rfl
    | cons a as => simp [viewArgs, ih]

theorem viewArgs_mem {Is : List Range} {as : List (List γ)} {w : Nat} (h : ∀ a ∈ as, a.length = w) :
    ∀ a ∈ viewArgs e Is as, a.length = w := by
  induction Is generalizing as with
  | nil => cases as <;> exact h
  | cons I Is ih => cases as with
    | nil => exact h
    | cons a as =>
      intro b hb
      rcases List.mem_cons.1 hb with rfl | hb
      · rw [view_length]; exact h a (by simp)
      · exact ih (fun x hx => h x (by simp [hx])) b hb

theorem viewArgs_ne {Is : List Range} {as : List (List γ)} (h : as ≠ []) : viewArgs e Is as ≠ [] := by
  intro h'
  have := viewArgs_length (e := e) Is as
  rw [h'] at this
  exact h (List.length_eq_zero_iff.1 this.symm)

/-- The operations on lanes in the order in which they are loaded. -/
def viewOps (e : Env) (ins : List Range) (ops : ROps σ γ β τ) : ROps σ γ β τ where
  trans s args := ops.trans s (viewArgs e ins args)
  red := ops.red
  hredB := ops.hredB
  hredT := ops.hredT
  cvt := ops.cvt
  transShape s w args r h1 h2 h3 := ops.transShape s w _ r (viewArgs_ne h1) (viewArgs_mem h2) h3
  redShape := ops.redShape

/-- All elements of all ranges, one range after the other. -/
def arena (arrays : List (List α)) (n : Nat) (ins : List Range) : List (List α) := (ins.map (structsOf arrays n)).flatten

theorem loadA_view {I : Range} {mem : List α} (hF : I.F.WF I.c) (hm : arrays[I.arr]? = some mem) {w : Nat}
    (hw : 0 < w) (hW : w ≤ e.size) {pos : Nat} (hpos : (pos + w) * I.c ≤ mem.length) :
    loadA zero junk arrays w I (pos : Int) = .ok (view e I ((List.range w).map fun i => structAt mem I.c (pos + i))) := by
  unfold loadA ForEachStruct.load
  rw [hm]
  simp only [show ¬ (pos : Int) < 0 by omega, if_false, Int.toNat_natCast]
  have hl : (pos + (I.F.env w).n) * (I.F.env w).count ≤ mem.length := by rw [hF.width, hF.count]; exact hpos
  obtain ⟨r, h1, h2⟩ := load_members (I.F.env w) (I.F.perm w) zero junk mem pos (hF.valid w hw) hl
  rw [h1, Outcome.bind_ok]
  rw [hF.width, hF.count] at h2
  congr 1
  have hlen : ((List.range w).map fun i => structAt mem I.c (pos + i)).length = w := by simp
  unfold view
  rw [hlen, if_pos hW]
  apply List.ext_getElem?
  intro i
  by_cases hi : i < w
  · rw [reorder_getElem? _ _ (by rw [hlen]; exact hi), hlen]
    have hmod : 3 * i % w < w := Nat.mod_lt _ hw
    simp only [lanesOf, List.getElem?_map, List.getElem?_range hi, Option.map_some]
    rw [lane_eq h2 hi]
    split
    · rw [List.getElem?_range hmod]; rfl
    · rw [List.getElem?_range hi]; rfl
  · rw [List.getElem?_eq_none (by simp; omega), List.getElem?_eq_none (by simp; omega)]

@[simp] theorem structsOf_length (I : Range) : (structsOf arrays n I).length = n := by simp [structsOf]

/-- What the model of `transform_reduce` on one arena loads. -/
theorem loadIns_arena (t : TEnv) (ht : t.n = n) {p w : Nat} (hp : p + w ≤ n) (Is : List Range) (pre : List (List α)) :
    loadIns t (pre ++ arena arrays n Is) w (p : Int) ((List.range Is.length).map (pre.length + · * n)) =
      .ok (Is.map fun I => (List.range w).map fun i => structAt (contents arrays I) I.c (p + i)) := by
  induction Is generalizing pre with
  | nil => rfl
  | cons I Is ih =>
    rw [List.length_cons, List.range_succ_eq_map, List.map_cons, List.map_map, loadIns]
    have h1 : loadIn t (pre ++ arena arrays n (I :: Is)) w (pre.length + 0 * n) (p : Int) =
        .ok ((List.range w).map fun i => structAt (contents arrays I) I.c (p + i)) := by
      unfold loadIn
      have e1 : (((pre.length + 0 * n : Nat) : Int) + (p : Int)).toNat = pre.length + p := by simp; omega
      rw [if_pos, e1]
      · congr 1
        rw [List.drop_append, List.drop_eq_nil_of_le (by omega), List.nil_append,
          show pre.length + p - pre.length = p by omega]
        show ((structsOf arrays n I ++ arena arrays n Is).drop p).take w = _
        rw [List.drop_append_of_le_length (by simp; omega), List.take_append_of_le_length (by simp; omega)]
        apply List.ext_getElem?
        intro i
        rw [List.getElem?_take, List.getElem?_drop]
        by_cases hi : i < w
        · rw [if_pos hi]
          simp only [structsOf, List.getElem?_map, List.getElem?_range hi, Option.map_some, List.getElem?_range (show p + i < n by omega)]
        · rw [if_neg hi, List.getElem?_eq_none (by simp; omega)]
      · simp only [inRange, Bool.and_eq_true, decide_eq_true_eq]
        have : (arena arrays n (I :: Is)).length = n + (arena arrays n Is).length := by simp [arena]
        rw [List.length_append, this, ht]
        omega
    rw [h1, Outcome.bind_ok]
    have h2 := ih (pre ++ structsOf arrays n I)
    rw [List.append_assoc] at h2
    have h3 : ((fun x => (pre ++ structsOf arrays n I).length + x * n) : Nat → Nat) = (fun x => pre.length + x * n) ∘ Nat.succ := by
      funext x
      simp only [List.length_append, structsOf_length, Function.comp, Nat.succ_eq_add_one, Nat.add_mul, Nat.one_mul]
      omega
    rw [h3] at h2
    rw [show pre ++ arena arrays n (I :: Is) = pre ++ (structsOf arrays n I ++ arena arrays n Is) from rfl, h2, Outcome.bind_ok]
    rfl

theorem loadsA_view {Is : List Range} (hwf : ∀ I ∈ Is, I.F.WF I.c)
    (hmem : ∀ I ∈ Is, ∃ mem, arrays[I.arr]? = some mem ∧ n * I.c ≤ mem.length) {w p : Nat} (hw : 0 < w) (hW : w ≤ e.size)
    (hp : p + w ≤ n) :
    loadsA zero junk arrays w (p : Int) Is =
      .ok (viewArgs e Is (Is.map fun I => (List.range w).map fun i => structAt (contents arrays I) I.c (p + i))) := by
  induction Is with
  | nil => rfl
  | cons I Is ih =>
    obtain ⟨mem, h1, h2⟩ := hmem I (by simp)
    have hc : contents arrays I = mem := by simp [contents, h1]
    have := Nat.mul_le_mul_right I.c hp
    rw [loadsA, loadA_view (hwf I (by simp)) h1 hw hW (by omega), Outcome.bind_ok,
      ih (fun J hJ => hwf J (by simp [hJ])) (fun J hJ => hmem J (by simp [hJ])), Outcome.bind_ok]
    simp only [List.map_cons, viewArgs, hc]

/-- The arguments of the invocation at position `p`, if loads keep the order. -/
def argsAt (arrays : List (List α)) (ins : List Range) (w p : Nat) : List (List (List α)) :=
  ins.map fun I => (List.range w).map fun i => structAt (contents arrays I) I.c (p + i)

theorem argsAt_mem {w p : Nat} : ∀ a ∈ argsAt arrays ins w p, a.length = w := by
  intro a ha
  simp only [argsAt, List.mem_map] at ha
  obtain ⟨I, _, rfl⟩ := ha
  simp

theorem loadArraysInvoke_eq (ok : InputArraysOk ins n arrays) (ops : ROps σ (List α) β τ) {aligned : Bool} {w p : Nat}
    (hal : aligned = true → alignedAt e (p : Int) w = true) (hw : 0 < w) (hW : w ≤ e.size) (hp : p + w ≤ n) :
    loadArraysInvoke zero junk e ins ops arrays aligned w (p : Int) (p : Int) =
      Eff.invoke fun s => ops.trans s (viewArgs e ins (argsAt arrays ins w p)) := by
  have h3 : (aligned && !alignedAt e (p : Int) w) = false := by
    cases aligned with
    | false => rfl
    | true => simp [hal rfl]
  unfold loadArraysInvoke
  cases h : ins with
  | nil => exact absurd h ok.ins_ne
  | cons I Is =>
    obtain ⟨mem, h1, h2⟩ := ok.mem I (by simp [h])
    have hc : contents arrays I = mem := by simp [contents, h1]
    have := Nat.mul_le_mul_right I.c hp
    simp only [h3, Bool.false_eq_true, if_false]
    rw [loadA_view (e := e) (ok.wf I (by simp [h])) h1 hw hW (by omega), Eff.lift_ok, Eff.pure_bind',
      loadsA_view (e := e) (fun J hJ => ok.wf J (by simp [h, hJ])) (fun J hJ => ok.mem J (by simp [h, hJ])) hw hW hp,
      Eff.lift_ok, Eff.pure_bind']
    simp only [argsAt, List.map_cons, viewArgs, hc]

theorem loadInvokeE_arena (hne : ins ≠ []) (ops : ROps σ (List α) β τ) {aligned : Bool} {w p : Nat}
    (hal : aligned = true → alignedAt e (p : Int) w = true) (hp : p + w ≤ n) :
    loadInvokeE ⟨e, bases n ins, 0, n⟩ (viewOps e ins ops) (arena arrays n ins) aligned w (p : Int) (p : Int) =
      Eff.invoke fun s => ops.trans s (viewArgs e ins (argsAt arrays ins w p)) := by
  have h3 : (aligned && !alignedAt e (p : Int) w) = false := by
    cases aligned with
    | false => rfl
    | true => simp [hal rfl]
  have key := loadIns_arena (arrays := arrays) ⟨e, bases n ins, 0, n⟩ rfl hp ins []
  simp only [List.nil_append, List.length_nil, Nat.zero_add] at key
  have hb : (List.range ins.length).map (· * n) = bases n ins := rfl
  rw [hb] at key
  unfold loadInvokeE
  simp only
  cases h : bases n ins with
  | nil =>
    have := congrArg List.length h
    simp [bases] at this
    exact absurd this hne
  | cons b bs =>
    rw [h] at key
    simp only [loadIns] at key
    simp only [h3, Bool.false_eq_true, if_false]
    obtain ⟨c, h1, key⟩ := bind_eq_ok key
    obtain ⟨cs, h2, key⟩ := bind_eq_ok key
    rw [h1, h2, Eff.lift_ok, Eff.pure_bind', Eff.lift_ok, Eff.pure_bind']
    have hk : c :: cs = argsAt arrays ins w p := by
      simp only [Outcome.ok.injEq] at key
      exact key
    rw [hk]
    rfl

theorem WidthOk.pos {size w : Nat} (hs : 0 < size) (h : WidthOk size w) : 0 < w ∧ w ≤ size := by
  rcases h with rfl | ⟨⟨k, rfl⟩, h⟩
  · exact ⟨hs, Nat.le_refl _⟩
  · exact ⟨Nat.two_pow_pos k, by omega⟩

/-- `transform_reduce` on arrays is `transform_reduce` on the elements of the arrays, with the lanes in the order of the loads. -/
theorem transformReduceA_eq (ok : InputArraysOk ins n arrays) (hs : 0 < e.size) (ops : ROps σ (List α) β τ) (init : τ)
    (htri : ∀ ld'' : Loader σ β, Prims (fun _ _ _ => True) (fun _ => True) (fun _ => False) ⟨e, bases n ins, 0, n⟩ ops ld'' →
      Eff.Tri (fun _ _ _ => True) (fun _ => True) (fun _ => False) 0 0 n 0 (fun _ => True)
        (transformReduceL ⟨e, bases n ins, 0, n⟩ ops ld'' init)) (s : σ) :
    transformReduceA zero junk e ins n ops arrays init s =
      transformReduceE ⟨e, bases n ins, 0, n⟩ (viewOps e ins ops) (arena arrays n ins) init s := by
  refine (transformReduceL_congr (t := ⟨e, bases n ins, 0, n⟩) (ops := ops) (ld := loadArraysInvoke zero junk e ins ops arrays)
    ?_ ?_ init htri s).symm
  · intro aligned p w h1 h2 h3 s
    obtain ⟨g1, g2⟩ := WidthOk.pos hs h3
    rw [loadArraysInvoke_eq ok ops h1 g1 g2 h2]
    refine ⟨_, _, rfl, fun x hx => ?_⟩
    have hne : argsAt arrays ins w p ≠ [] := by simpa [argsAt] using ok.ins_ne
    exact ops.transShape s w _ x (viewArgs_ne hne) (viewArgs_mem argsAt_mem) hx
  · intro aligned p w h1 h2 h3
    obtain ⟨g1, g2⟩ := WidthOk.pos hs h3
    rw [loadArraysInvoke_eq ok ops h1 g1 g2 h2]
    exact loadInvokeE_arena ok.ins_ne ops h1 h2

theorem view_ordered {I : Range} (h : ∀ w, 0 < w → w ≤ e.size → ¬ Unordered (I.F.env w)) (a : List γ) : view e I a = a := by
  unfold view
  split
  · rename_i hle
    by_cases h0 : a.length = 0
    · exact List.length_eq_zero_iff.1 (by simpa using h0) |> fun h => by subst h; exact List.length_eq_zero_iff.1 (by simp)
    · exact reorder_ordered (h _ (by omega) hle) a
  · rfl

theorem viewArgs_ordered {Is : List Range} (h : ∀ I ∈ Is, ∀ w, 0 < w → w ≤ e.size → ¬ Unordered (I.F.env w)) (as : List (List γ)) :
    viewArgs e Is as = as := by
  induction Is generalizing as with
  | nil => cases as <;> rfl
  | cons I Is ih => cases as with
    | nil => rfl
    | cons a as =>
      rw [viewArgs, view_ordered (h I (by simp)), ih fun J hJ => h J (by simp [hJ])]

theorem viewOps_ordered (h : ∀ I ∈ ins, ∀ w, 0 < w → w ≤ e.size → ¬ Unordered (I.F.env w)) (ops : ROps σ γ β τ) :
    viewOps e ins ops = ops := by
  have : (fun s args => ops.trans s (viewArgs e ins args)) = ops.trans := by
    funext s args
    rw [viewArgs_ordered h]
  cases ops
  simp only [viewOps]
  congr

/-- All ranges are permuted in the same way, or none. -/
theorem viewArgs_uniform {Is : List Range} {w : Nat} {S : SEnv} (h : ∀ I ∈ Is, Unordered (I.F.env w) ↔ Unordered S) {as : List (List γ)}
    (hl : as.length ≤ Is.length) (has : ∀ a ∈ as, a.length = w) (hW : w ≤ e.size) : viewArgs e Is as = as.map (reorder S) := by
  induction Is generalizing as with
  | nil =>
    cases as with
    | nil => rfl
    | cons => simp at hl
  | cons I Is ih => cases as with
    | nil => rfl
    | cons a as =>
      have ha := has a (by simp)
      rw [viewArgs, ih (fun J hJ => h J (by simp [hJ])) (by simpa using hl) (fun x hx => has x (by simp [hx])), List.map_cons]
      congr 1
      have hI := h I (by simp)
      subst ha
      unfold view reorder
      rw [if_pos hW]
      simp only [hI]

/-- `transform_op` on lanes in the order of the loads. -/
def viewOp (e : Env) (ins : List Range) (op : VecOp γ β) : VecOp γ β where
  call args := op.call (viewArgs e ins args)
  shape w args h1 h2 := op.shape w _ (viewArgs_ne h1) (viewArgs_mem h2)

theorem filterMap_map_reorder {S : SEnv} {as : List (List γ)} {w i : Nat} (has : ∀ a ∈ as, a.length = w) (hi : i < w) :
    (as.map (reorder S)).filterMap (·[i]?) = as.filterMap (·[if Unordered S then 3 * i % w else i]?) := by
  rw [List.filterMap_map]
  apply List.filterMap_congr
  intro a ha
  have := has a ha
  subst this
  simp only [Function.comp, reorder_getElem? S a hi]

theorem viewOp_perm {op : VecOp γ β} {g : List γ → β} (hop : LaneWise op g) (hu : UniformOrder e ins)
    (hwf : ∀ I ∈ ins, I.F.WF I.c) {as : List (List γ)} (hne : as ≠ []) (hl : as.length ≤ ins.length) {w : Nat} (has : ∀ a ∈ as, a.length = w) :
    ((viewOp e ins op).call as).Perm (op.call as) := by
  by_cases h0 : w = 0
  · subst h0
    rw [List.length_eq_zero_iff.1 ((viewOp e ins op).shape 0 as hne has), List.length_eq_zero_iff.1 (op.shape 0 as hne has)]
  by_cases hW : w ≤ e.size
  · cases hi : ins with
    | nil => rw [hi] at hl; exact absurd (List.length_eq_zero_iff.1 (Nat.le_zero.1 hl)) hne
    | cons I Is =>
      rw [← hi]
      have hI : I ∈ ins := by simp [hi]
      have h1 := viewArgs_uniform (e := e) (S := I.F.env w) (fun J hJ => hu w (by omega) hW J hJ I hI) hl has hW
      show (op.call (viewArgs e ins as)).Perm _
      rw [h1, hop w _ (by simpa using hne) (by
        intro a ha
        obtain ⟨b, hb, rfl⟩ := List.mem_map.1 ha
        rw [reorder_length]; exact has b hb), hop w as hne has]
      have h2 : (List.range w).map (fun i => g ((as.map (reorder (I.F.env w))).filterMap (·[i]?))) =
          reorder (I.F.env w) ((List.range w).map fun i => g (as.filterMap (·[i]?))) := by
        apply List.ext_getElem?
        intro i
        by_cases hiw : i < w
        · rw [reorder_getElem? _ _ (by simpa using hiw)]
          simp only [List.getElem?_map, List.getElem?_range hiw, Option.map_some, List.length_map, List.length_range]
          rw [filterMap_map_reorder has hiw]
          split
          · rw [List.getElem?_range (Nat.mod_lt _ (by omega))]; rfl
          · rw [List.getElem?_range hiw]; rfl
        · rw [List.getElem?_eq_none (by simp; omega), List.getElem?_eq_none (by simp; omega)]
      rw [h2]
      exact reorder_perm (by rw [(hwf I hI).width]; simp)
  · have : viewArgs e ins as = as := by
      have : ∀ (Is : List Range) (as : List (List γ)), (∀ a ∈ as, a.length = w) → viewArgs e Is as = as := by
        intro Is
        induction Is with
        | nil => intro as _; cases as <;> rfl
        | cons I Is ih =>
          intro as h
          cases as with
          | nil => rfl
          | cons a as =>
            rw [viewArgs, ih as fun x hx => h x (by simp [hx])]
            unfold view
            rw [if_neg (by rw [h a (by simp)]; exact hW)]
      exact this ins as has
    show (op.call (viewArgs e ins as)).Perm _
    rw [this]

theorem outs_viewOp_perm {op : VecOp γ β} {g : List γ → β} (hop : LaneWise op g) (hu : UniformOrder e ins)
    (hwf : ∀ I ∈ ins, I.F.WF I.c) {bs : List Nat} (hb : bs ≠ []) (hl : bs.length ≤ ins.length) {mem : List γ}
    (hm : ∀ b ∈ bs, b + n ≤ mem.length) (p : Nat) (ws : List Nat) (hp : p + ws.sum ≤ n) :
    (outs (viewOp e ins op) bs mem p ws).Perm (outs op bs mem p ws) := by
  induction ws generalizing p with
  | nil => exact List.Perm.refl _
  | cons w ws ih =>
    rw [List.sum_cons] at hp
    simp only [outs]
    refine List.Perm.append (viewOp_perm hop hu hwf (by simpa using hb) (by simpa using hl) (w := w) ?_) (ih (p + w) (by omega))
    intro a ha
    obtain ⟨b, hb', rfl⟩ := List.mem_map.1 ha
    have := hm b hb'
    simp [slice]; omega

/-- Loads of one element are not permuted. -/
theorem outs_viewOp_one {op : VecOp γ β} (hwf : ∀ I ∈ ins, I.F.WF I.c) {bs : List Nat} {mem : List γ}
    (hm : ∀ b ∈ bs, b + n ≤ mem.length) (p k : Nat) (hp : p + k ≤ n) :
    outs (viewOp e ins op) bs mem p (List.replicate k 1) = outs op bs mem p (List.replicate k 1) := by
  have one : ∀ (Is : List Range) (as : List (List γ)), (∀ I ∈ Is, I.F.WF I.c) → (∀ a ∈ as, a.length = 1) → viewArgs e Is as = as := by
    intro Is
    induction Is with
    | nil => intro as _ _; cases as <;> rfl
    | cons I Is ih =>
      intro as h1 h2
      cases as with
      | nil => rfl
      | cons a as =>
        rw [viewArgs, ih as (fun J hJ => h1 J (by simp [hJ])) fun x hx => h2 x (by simp [hx])]
        congr 1
        unfold view
        split
        · apply reorder_ordered
          intro hu
          have := hu.2.2.2.2.1
          rw [(h1 I (by simp)).width, h2 a (by simp)] at this
          omega
        · rfl
  induction k generalizing p with
  | zero => rfl
  | succ k ih =>
    simp only [List.replicate_succ, outs]
    rw [ih (p + 1) (by omega)]
    congr 1
    show op.call (viewArgs e ins _) = _
    rw [one ins _ hwf]
    intro a ha
    obtain ⟨b, hb', rfl⟩ := List.mem_map.1 ha
    have := hm b hb'
    simp [slice]; omega

theorem arena_length : (arena arrays n ins).length = ins.length * n := by
  induction ins with
  | nil => simp [arena]
  | cons I Is ih =>
    have : arena arrays n (I :: Is) = structsOf arrays n I ++ arena arrays n Is := rfl
    rw [this, List.length_append, ih, structsOf_length, List.length_cons, Nat.add_mul, Nat.one_mul, Nat.add_comm]

theorem arena_bases : ∀ b ∈ bases n ins, b + n ≤ (arena arrays n ins).length := by
  intro b hb
  simp only [bases, List.mem_map, List.mem_range] at hb
  obtain ⟨j, hj, rfl⟩ := hb
  rw [arena_length]
  have := Nat.mul_le_mul_right n (show j + 1 ≤ ins.length by omega)
  rw [Nat.add_mul, Nat.one_mul] at this
  exact this

theorem arena_drop {j : Nat} (hj : j < ins.length) : ((arena arrays n ins).drop (j * n)).take n = structsOf arrays n ins[j] := by
  induction ins generalizing j with
  | nil => simp at hj
  | cons I Is ih =>
    have h : arena arrays n (I :: Is) = structsOf arrays n I ++ arena arrays n Is := rfl
    rw [h]
    cases j with
    | zero => simp
    | succ j =>
      rw [Nat.add_mul, Nat.one_mul, List.drop_append, List.drop_eq_nil_of_le (by simp), List.nil_append, structsOf_length,
        Nat.add_sub_cancel]
      simpa using ih (by simpa using hj)

/-- The elements number `i` of all ranges. -/
theorem arena_at {i : Nat} (hi : i < n) :
    (bases n ins).filterMap (fun a => (arena arrays n ins)[a + i]?) = ins.map fun I => structAt (contents arrays I) I.c i := by
  apply List.ext_getElem?
  intro j
  have hsome : ∀ a ∈ bases n ins, ((arena arrays n ins)[a + i]?).isSome := by
    intro a ha
    have := arena_bases (arrays := arrays) a ha
    rw [List.getElem?_eq_getElem (by omega)]; rfl
  have key : (bases n ins).filterMap (fun a => (arena arrays n ins)[a + i]?) =
      (bases n ins).map fun a => (arena arrays n ins).getD (a + i) [] := by
    generalize bases n ins = bs at hsome ⊢
    induction bs with
    | nil => rfl
    | cons b bs ih =>
      have := hsome b (by simp)
      obtain ⟨x, hx⟩ := Option.isSome_iff_exists.1 this
      rw [List.filterMap_cons_some (f := fun a => (arena arrays n ins)[a + i]?) (a := b) (b := x) hx, List.map_cons, ih fun a ha => hsome a (by simp [ha])]
      simp [List.getD, hx]
  rw [key]
  by_cases hj : j < ins.length
  · have h1 := congrArg (·[i]?) (arena_drop (arrays := arrays) (n := n) hj)
    simp only [List.getElem?_take, hi, if_true, List.getElem?_drop] at h1
    simp only [bases, List.map_map, List.getElem?_map, List.getElem?_range hj, Option.map_some, Function.comp, List.getD, h1,
      List.getElem?_eq_getElem hj]
    simp [structsOf, hi]
  · rw [List.getElem?_eq_none (by simp [bases]; omega), List.getElem?_eq_none (by simp; omega)]

end TransformArrays
end Vir
