import Verif.Model.ArrayAlgorithms
import Verif.Lemmas.ForEachStruct
import Verif.Lemmas.TransformGen
import Verif.Lemmas.GroupsAligned
import Verif.Lemmas.CountIf
import Verif.Spec.ArrayAlgorithms

/-! Lemmas about the algorithms on arrays with different element types. -/

namespace Vir
open Spec ForEach Transform CountIf

theorem groupsOf_widths {e : Env} (wf : e.WF) {n : Nat} : ∀ g ∈ groupsOf e n, 0 < g.w ∧ g.w ≤ e.size := by
  intro g hg
  have le_of_mem : ∀ {l : List Nat} {w : Nat}, w ∈ l → w ≤ l.sum := fun {l w} h => by
    induction l with
    | nil => cases h
    | cons a l ih =>
      rw [List.sum_cons]
      rcases List.mem_cons.1 h with rfl | h
      · omega
      · have := ih h; omega
  have hs := wf.size_pos
  unfold groupsOf at hg
  split at hg
  · simp at hg
  · simp only [List.mem_append, List.mem_replicate, chunked, List.mem_map] at hg
    rcases hg with ⟨w, hw, rfl⟩ | ⟨_, rfl⟩ | ⟨_, rfl⟩ | ⟨w, hw, rfl⟩
    · refine ⟨mem_bitsAsc_pos hw, ?_⟩
      have := le_of_mem hw
      rw [bitsAsc_sum] at this
      rcases proCount_cases e n with h | ⟨h1, h2, h3⟩
      · rw [h] at this; simp only; omega
      · obtain ⟨K, hK⟩ := proInfo wf h1
        have hlt := hK.tp_lt h2
        have := hK.le_size
        simp only
        omega
    · exact ⟨hs, Nat.le_refl _⟩
    · exact ⟨hs, Nat.le_refl _⟩
    · refine ⟨mem_bitsDesc_pos hw, ?_⟩
      have := le_of_mem hw
      rw [bitsDesc_sum] at this
      have := Nat.mod_lt (n - proCount e n) hs
      simp only
      omega

theorem constGroupsOf_widths {e : Env} (hs : 0 < e.size) {n : Nat} :
    ∀ g ∈ constGroupsOf e n, 0 < g.w ∧ g.w ≤ e.size ∧ g.aligned = false := by
  intro g hg
  simp only [constGroupsOf, List.mem_append, List.mem_replicate] at hg
  rcases hg with ⟨_, rfl⟩ | ⟨_, rfl⟩
  · exact ⟨hs, Nat.le_refl _, rfl⟩
  · exact ⟨Nat.one_pos, hs, rfl⟩

theorem groupsAligned_false {e : Env} {gs : List Group} (h : ∀ g ∈ gs, g.aligned = false) (p : Nat) : GroupsAligned e p gs := by
  induction gs generalizing p with
  | nil => trivial
  | cons g gs ih =>
    refine ⟨fun ha => ?_, ih (fun g hg => h g (by simp [hg])) _⟩
    rw [h g (by simp)] at ha
    cases ha

namespace TransformArrays
open Simdize

variable {α : Type} {zero : α} {junk : Nat → α}

@[simp] theorem lanesOf_length (w : Nat) (v : List (List α)) : (lanesOf w v).length = w := by simp [lanesOf]
@[simp] theorem ofLanes_length (c : Nat) (xs : List (List α)) : (ofLanes c xs).length = c := by simp [ofLanes]

/-- A list of lists that all have an element `i`. -/
theorem filterMap_getElem? {v : List (List α)} {i : Nat} (h : ∀ x ∈ v, i < x.length) (m : Nat) :
    (v.filterMap (·[i]?))[m]? = (v[m]?).bind (·[i]?) := by
  induction v generalizing m with
  | nil => simp
  | cons x v ih =>
    have hx := h x (by simp)
    rw [List.filterMap_cons_some (f := (·[i]?)) (b := x[i]) (List.getElem?_eq_getElem hx)]
    cases m with
    | zero => simp [hx]
    | succ m => simp only [List.getElem?_cons_succ]; exact ih (fun y hy => h y (by simp [hy])) m

theorem filterMap_length {v : List (List α)} {i : Nat} (h : ∀ x ∈ v, i < x.length) : (v.filterMap (·[i]?)).length = v.length := by
  induction v with
  | nil => rfl
  | cons x v ih =>
    have hx := h x (by simp)
    rw [List.filterMap_cons_some (f := (·[i]?)) (b := x[i]) (List.getElem?_eq_getElem hx)]
    simp [ih fun y hy => h y (by simp [hy])]

theorem lane_eq {count n i : Nat} {r : List (List α)} {mem : List α} {src : Nat → Nat} (h : Members count n r mem src) (hi : i < n) :
    r.filterMap (·[i]?) = structAt mem count (src i) := by
  have hs := h.shape
  have hlt : ∀ x ∈ r, i < x.length := fun x hx => by rw [hs.2 x hx]; exact hi
  apply List.ext_getElem?
  intro m
  rw [filterMap_getElem? hlt]
  by_cases hm : m < count
  · obtain ⟨v, g1, g2, g3⟩ := h.2 m hm
    simp only [g1, Option.bind_some]
    rw [g3 i hi, structAt, List.getElem?_take, if_pos hm, List.getElem?_drop]
  · rw [List.getElem?_eq_none (by rw [hs.1]; omega), List.getElem?_eq_none (by simp [structAt]; omega)]
    rfl

theorem ofLanes_shape {c w : Nat} {xs : List (List α)} (hw : xs.length = w) (hx : ∀ x ∈ xs, x.length = c) : Shape c w (ofLanes c xs) := by
  refine ⟨by simp, fun v hv => ?_⟩
  simp only [ofLanes, List.mem_map, List.mem_range] at hv
  obtain ⟨m, hm, rfl⟩ := hv
  rw [filterMap_length fun x h => by rw [hx x h]; exact hm, hw]

theorem ofLanes_get {c : Nat} {xs : List (List α)} (hx : ∀ x ∈ xs, x.length = c) {m : Nat} (hm : m < c) {v : List α}
    (hv : (ofLanes c xs)[m]? = some v) (i : Nat) : v[i]? = (xs[i]?).bind (·[m]?) := by
  simp only [ofLanes, List.getElem?_map, List.getElem?_range hm, Option.map_some, Option.some.injEq] at hv
  rw [← hv, filterMap_getElem? fun x h => by rw [hx x h]; exact hm]

/-- Structs are equal if their members in memory are. -/
theorem structAt_congr {mem mem' : List α} {c i : Nat} (h : ∀ m, m < c → mem[i * c + m]? = mem'[i * c + m]?) :
    structAt mem c i = structAt mem' c i := by
  apply List.ext_getElem?
  intro m
  simp only [structAt, List.getElem?_take, List.getElem?_drop]
  split
  · rename_i hm; exact h m hm
  · rfl

theorem structAt_length {mem : List α} {c i : Nat} (h : (i + 1) * c ≤ mem.length) : (structAt mem c i).length = c := by
  rw [Nat.add_mul, Nat.one_mul] at h
  simp [structAt]; omega

theorem loadA_eq {arrays : List (List α)} {I : Range} {mem : List α} (hF : I.F.WF I.c) (hm : arrays[I.arr]? = some mem) {w : Nat}
    (hw : 0 < w) (hu : ¬ Unordered (I.F.env w)) {pos : Nat} (hpos : (pos + w) * I.c ≤ mem.length) :
    loadA zero junk arrays w I (pos : Int) = .ok ((List.range w).map fun i => structAt mem I.c (pos + i)) := by
  unfold loadA ForEachStruct.load
  rw [hm]
  simp only [show ¬ (pos : Int) < 0 by omega, if_false, Int.toNat_natCast]
  have hl : (pos + (I.F.env w).n) * (I.F.env w).count ≤ mem.length := by rw [hF.width, hF.count]; exact hpos
  obtain ⟨r, h1, h2⟩ := load_members (I.F.env w) (I.F.perm w) zero junk mem pos (hF.valid w hw) hl
  rw [h1, Outcome.bind_ok]
  simp only [hu, if_false] at h2
  rw [hF.width, hF.count] at h2
  congr 1
  unfold lanesOf
  apply List.map_congr_left
  intro i hi
  exact lane_eq h2 (List.mem_range.1 hi)

variable {A : AEnv} {arrays : List (List α)}

variable {g : List (List α) → List α}

theorem upto_zero (ok : ArraysOk A arrays) : Written A arrays g 0 arrays := by
  obtain ⟨mem, h1, h2⟩ := ok.mem A.out (by simp)
  exact ⟨rfl, fun _ _ => rfl, mem, mem, h1, h1, rfl, fun _ h => by omega, fun _ _ => rfl⟩

theorem load_upto (ok : ArraysOk A arrays) {p q w : Nat} {st : List (List α)} (hU : Written A arrays g p st) (hw : 0 < w) {I : Range} (hI : I ∈ A.ins)
    (hu : ¬ Unordered (I.F.env w)) (hpq : p ≤ q) (hq : q + w ≤ A.n) :
    loadA zero junk st w I (q : Int) = .ok ((List.range w).map fun i => structAt (contents arrays I) I.c (q + i)) := by
  have hF := ok.wf I (by simp [hI])
  obtain ⟨mem, h1, h2⟩ := ok.mem I (by simp [hI])
  have hc : contents arrays I = mem := by simp [contents, h1]
  have hle : (q + w) * I.c ≤ A.n * I.c := Nat.mul_le_mul_right _ hq
  by_cases ha : I.arr = A.out.arr
  · obtain ⟨m0, mem', e1, e2, e3, _, e5⟩ := hU.out
    have hcc := ok.same I hI ha
    have : mem = m0 := by rw [ha, e1] at h1; exact (Option.some.inj h1).symm
    subst this
    rw [loadA_eq hF (by rw [ha]; exact e2) hw hu (by omega), hc]
    congr 1
    apply List.map_congr_left
    intro i _
    apply structAt_congr
    intro m _
    apply e5
    rw [← hcc]
    have : p * I.c ≤ (q + i) * I.c := Nat.mul_le_mul_right _ (by omega)
    omega
  · rw [loadA_eq hF (by rw [hU.other _ ha]; exact h1) hw hu (by omega), hc]

theorem loads_upto (ok : ArraysOk A arrays) {p q w : Nat} {st : List (List α)} (hU : Written A arrays g p st) (hw : 0 < w)
    (hu : ∀ I ∈ A.ins, ¬ Unordered (I.F.env w)) (hpq : p ≤ q) (hq : q + w ≤ A.n) (Is : List Range) (hIs : ∀ I ∈ Is, I ∈ A.ins) :
    loadsA zero junk st w (q : Int) Is =
      .ok (Is.map fun I => (List.range w).map fun i => structAt (contents arrays I) I.c (q + i)) := by
  induction Is with
  | nil => rfl
  | cons I Is ih =>
    have hI := hIs I (by simp)
    rw [loadsA, load_upto ok hU hw hI (hu I hI) hpq hq, Outcome.bind_ok, ih fun J hJ => hIs J (by simp [hJ]), Outcome.bind_ok]
    rfl

theorem filterMap_range_map {Is : List Range} {f : Range → Nat → List α} {w i : Nat} (hi : i < w) :
    (Is.map fun I => (List.range w).map (f I)).filterMap (·[i]?) = Is.map fun I => f I i := by
  induction Is with
  | nil => rfl
  | cons I Is ih =>
    rw [List.map_cons, List.filterMap_cons_some (b := f I i) (by simp [hi]), ih, List.map_cons]

theorem invoke_upto (ok : ArraysOk A arrays) {op : VecOp (List α) (List α)} (hop : LaneWise op g) {p q w : Nat} {st : List (List α)}
    (hU : Written A arrays g p st) (hw : 0 < w) (hu : ∀ I ∈ A.ins, ¬ Unordered (I.F.env w)) (hpq : p ≤ q) (hq : q + w ≤ A.n) :
    loadAndInvokeA zero junk A op st w (q : Int) (q : Int) = .ok ((List.range w).map fun i => resultAt A arrays g (q + i)) := by
  have key := loads_upto (zero := zero) (junk := junk) ok hU hw hu hpq hq A.ins fun _ h => h
  have hne := ok.ins_ne
  have : loadAndInvokeA zero junk A op st w (q : Int) (q : Int) =
      (loadsA zero junk st w (q : Int) A.ins >>= fun args => .ok (op.call args)) := by
    unfold loadAndInvokeA
    cases h : A.ins with
    | nil => exact absurd h hne
    | cons I Is => simp only [loadsA, Outcome.bind_assoc, Outcome.bind_ok]
  rw [this, key, Outcome.bind_ok, hop w _ (by simpa using hne) (by
    intro a ha
    simp only [List.mem_map] at ha
    obtain ⟨I, _, rfl⟩ := ha
    simp)]
  congr 1
  apply List.map_congr_left
  intro i hi
  rw [filterMap_range_map (List.mem_range.1 hi)]
  rfl

theorem eval_upto (ok : ArraysOk A arrays) {op : VecOp (List α) (List α)} (hop : LaneWise op g) {p w : Nat} {st : List (List α)}
    (hU : Written A arrays g p st) (hw : 0 < w) (hu : ∀ I ∈ A.ins, ¬ Unordered (I.F.env w)) (k q : Nat) (hpq : p ≤ q)
    (hq : q + w * k ≤ A.n) :
    evalA zero junk A op st w k (q : Int) (q : Int) =
      .ok ((List.range k).map fun j => (List.range w).map fun i => resultAt A arrays g (q + w * j + i)) := by
  induction k generalizing q with
  | zero => rfl
  | succ k ih =>
    rw [Nat.mul_succ] at hq
    rw [evalA, invoke_upto ok hop hU hw hu hpq (by omega), Outcome.bind_ok]
    have e : (q : Int) + (w : Int) = ((q + w : Nat) : Int) := by omega
    rw [e, ih (q + w) (by omega) (by omega), Outcome.bind_ok, List.range_succ_eq_map, List.map_cons, List.map_map]
    congr 2
    apply List.map_congr_left
    intro j _
    apply List.map_congr_left
    intro i _
    congr 1
    rw [Nat.mul_succ]; omega

theorem store_upto (ok : ArraysOk A arrays) (hres : ∀ i < A.n, (resultAt A arrays g i).length = A.out.c) {p w : Nat} {st : List (List α)}
    (hU : Written A arrays g p st) (hw : 0 < w) {aligned : Bool} (hal : aligned = true → alignedAt A.e p w = true) (hp : p + w ≤ A.n) :
    ∃ st', storeA junk A aligned w (p : Int) ((List.range w).map fun i => resultAt A arrays g (p + i)) st = .ok st' ∧
      Written A arrays g (p + w) st' := by
  obtain ⟨mem, mem', e1, e2, e3, e4, e5⟩ := hU.out
  obtain ⟨m0, h1, h2⟩ := ok.mem A.out (by simp)
  have : m0 = mem := by rw [e1] at h1; exact (Option.some.inj h1).symm
  subst this
  have hF := ok.wf A.out (by simp)
  have hle : (p + w) * A.out.c ≤ A.n * A.out.c := Nat.mul_le_mul_right _ hp
  have hxs : ∀ x ∈ (List.range w).map (fun i => resultAt A arrays g (p + i)), x.length = A.out.c := by
    intro x hx
    simp only [List.mem_map, List.mem_range] at hx
    obtain ⟨i, hi, rfl⟩ := hx
    exact hres _ (by omega)
  obtain ⟨mem'', g1, g2, g3, g4, g5⟩ := store_spec (A.out.F.env w) junk (ofLanes A.out.c ((List.range w).map fun i => resultAt A arrays g (p + i)))
    mem' p (by rw [hF.width, hF.count]; exact ofLanes_shape (by simp) hxs) (by rw [hF.width, hF.count]; omega)
  rw [hF.width, hF.count] at g4 g5
  refine ⟨st.set A.out.arr mem'', ?_, by simp [hU.len], fun k hk => ?_, m0, mem'', e1, ?_, by omega, fun i hi => ?_, fun j hj => ?_⟩
  · unfold storeA ForEachStruct.store
    rw [e2]
    simp only
    rw [if_neg (by
      cases aligned with
      | false => simp
      | true => simp [hal rfl])]
    rw [if_neg (by omega), Int.toNat_natCast, g1, Outcome.bind_ok]
  · rw [List.getElem?_set_ne (Ne.symm hk)]; exact hU.other k hk
  · rw [List.getElem?_set_self (List.getElem?_eq_some_iff.1 e2).1]
  · by_cases hip : i < p
    · rw [← e4 i hip]
      apply structAt_congr
      intro m hm
      apply g5
      left
      have h := Nat.mul_le_mul_right A.out.c (show i + 1 ≤ p by omega)
      rw [Nat.add_mul, Nat.one_mul] at h
      omega
    · obtain ⟨d, rfl⟩ : ∃ d, i = p + d := ⟨i - p, by omega⟩
      apply List.ext_getElem?
      intro m
      by_cases hm : m < A.out.c
      · obtain ⟨v, a1, a2⟩ := g4 d (by omega) m hm
        rw [structAt, List.getElem?_take, if_pos hm, List.getElem?_drop, a2, ofLanes_get hxs hm a1]
        simp [show d < w by omega]
      · rw [List.getElem?_eq_none (by simp [structAt]; omega), List.getElem?_eq_none (by rw [hres _ (by omega)]; omega)]
  · rw [g5 j (Or.inr hj), e5 j]
    have := Nat.mul_le_mul_right A.out.c (show p ≤ p + w by omega)
    omega

theorem stores_upto (ok : ArraysOk A arrays) (hres : ∀ i < A.n, (resultAt A arrays g i).length = A.out.c) {w : Nat} (hw : 0 < w) {aligned : Bool}
    (k p : Nat) (st : List (List α)) (hU : Written A arrays g p st)
    (hal : aligned = true → AlignedSeq A.e p (List.replicate k w)) (hp : p + w * k ≤ A.n) :
    ∃ st', storesA junk A aligned w ((List.range k).map fun j => (List.range w).map fun i => resultAt A arrays g (p + w * j + i)) (p : Int) st =
      .ok st' ∧ Written A arrays g (p + w * k) st' := by
  induction k generalizing p st with
  | zero => exact ⟨st, rfl, hU⟩
  | succ k ih =>
    rw [Nat.mul_succ] at hp
    obtain ⟨st1, h1, h2⟩ := store_upto (junk := junk) ok hres hU hw (aligned := aligned) (fun ha => (hal ha).1) (by omega)
    obtain ⟨st2, h3, h4⟩ := ih (p + w) st1 h2 (fun ha => (hal ha).2) (by omega)
    refine ⟨st2, ?_, by rw [Nat.mul_succ, Nat.add_comm (w * k), ← Nat.add_assoc]; exact h4⟩
    rw [List.range_succ_eq_map, List.map_cons, List.map_map, storesA]
    simp only [Nat.mul_zero, Nat.add_zero]
    rw [h1, Outcome.bind_ok, show (p : Int) + (w : Int) = ((p + w : Nat) : Int) by omega, ← h3]
    congr 1
    apply List.map_congr_left
    intro j _
    apply List.map_congr_left
    intro i _
    congr 1
    rw [Nat.mul_succ]; omega

theorem groups_upto (ok : ArraysOk A arrays) (hres : ∀ i < A.n, (resultAt A arrays g i).length = A.out.c) {op : VecOp (List α) (List α)}
    (hop : LaneWise op g) (ho : OrderedInputs A) (gs : List Group)
    (hgs : ∀ G ∈ gs, 0 < G.w ∧ G.w ≤ A.e.size) (p : Nat) (st : List (List α)) (hU : Written A arrays g p st)
    (hal : GroupsAligned A.e p gs) (hp : p + span gs ≤ A.n) :
    ∃ st', runGroups (Transform.atPos (chunksA zero junk A op)) p gs st = .ok st' ∧ Written A arrays g (p + span gs) st' := by
  induction gs generalizing p st with
  | nil => exact ⟨st, rfl, hU⟩
  | cons G gs ih =>
    obtain ⟨hw, hW⟩ := hgs G (by simp)
    rw [span_cons, Group.elems] at hp
    obtain ⟨st1, h1, h2⟩ := stores_upto (junk := junk) ok hres hw G.k p st hU hal.1 (by omega)
    obtain ⟨st2, h3, h4⟩ := ih (fun G hG => hgs G (by simp [hG])) (p + G.elems) st1 h2 hal.2 (by rw [Group.elems]; omega)
    refine ⟨st2, ?_, by rw [span_cons, ← Nat.add_assoc]; exact h4⟩
    rw [runGroups]
    have : Transform.atPos (chunksA zero junk A op) G p st = .ok st1 := by
      unfold Transform.atPos chunksA
      rw [eval_upto ok hop hU hw (fun I hI => ho I hI _ hw hW) _ _ (Nat.le_refl _) (by omega), Outcome.bind_ok, h1]
    rw [this, Outcome.bind_ok, h3]

end TransformArrays
end Vir
