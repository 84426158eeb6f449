import Verif.Spec.LaneProg
import Verif.Lemmas.SimdProg
import Verif.Props.Where

/-! # Simd programs with elements of any type, helper lemmas -/

namespace Vir.LaneProg
open Simd Spec Spec.OneLane
open SimdProg (get choose_below map_range_congr getD_eq getD_set rd_some at'_some map_range_get maskBinary_map maskNot_map bound_below filterMap_lane)

variable {α : Type} {nv nm w : Nat}

/-! ### outcomes of whole simds in terms of their lanes -/

theorem bind_iff {β γ : Type} {r : Outcome β} {k : β → Outcome γ} {z : γ} : (r >>= k) = .ok z ↔ ∃ y, r = .ok y ∧ k y = .ok z := by
  cases r with
  | ok y => simp [Outcome.bind_ok]
  | ub u => simp [Outcome.bind_ub]
  | trap => simp [Outcome.bind_trap]

/-- The outcome is a value exactly if all lanes have one, and consists of these. -/
def Ret {β : Type} (w : Nat) (P : Nat → β → Prop) (r : Outcome (List β)) : Prop :=
  ∀ ys, r = .ok ys ↔ ∃ f : Nat → β, ys = (List.range w).map f ∧ ∀ i, i < w → P i (f i)

theorem Ret.congr {β : Type} {P Q : Nat → β → Prop} {r : Outcome (List β)} (h : Ret w P r) (hPQ : ∀ i, i < w → ∀ y, P i y ↔ Q i y) : Ret w Q r := by
  intro ys
  rw [h ys]
  constructor
  · rintro ⟨f, h1, h2⟩; exact ⟨f, h1, fun i hi => (hPQ i hi _).1 (h2 i hi)⟩
  · rintro ⟨f, h1, h2⟩; exact ⟨f, h1, fun i hi => (hPQ i hi _).2 (h2 i hi)⟩

theorem Ret.bind {β γ : Type} {P : Nat → β → Prop} {r : Outcome (List β)} (h : Ret w P r) {k : List β → Outcome γ} {z : γ} :
    (r >>= k) = .ok z ↔ ∃ f : Nat → β, (∀ i, i < w → P i (f i)) ∧ k ((List.range w).map f) = .ok z := by
  rw [bind_iff]
  constructor
  · rintro ⟨y, h1, h2⟩
    obtain ⟨f, rfl, hf⟩ := (h y).1 h1
    exact ⟨f, hf, h2⟩
  · rintro ⟨f, hf, h2⟩
    exact ⟨_, (h _).2 ⟨f, rfl, hf⟩, h2⟩

/-- Sequencing of two lanewise computations. -/
theorem Ret.then {β γ : Type} [Inhabited β] {P : Nat → β → Prop} {Q : Nat → β → γ → Prop} {r : Outcome (List β)} (h : Ret w P r)
    {k : List β → Outcome (List γ)} (hk : ∀ f : Nat → β, (∀ i, i < w → P i (f i)) → Ret w (fun i z => Q i (f i) z) (k ((List.range w).map f))) :
    Ret w (fun i z => ∃ y, P i y ∧ Q i y z) (r >>= k) := by
  intro zs
  rw [h.bind]
  constructor
  · rintro ⟨f, hf, h2⟩
    obtain ⟨g, rfl, hg⟩ := (hk f hf zs).1 h2
    exact ⟨g, rfl, fun i hi => ⟨f i, hf i hi, hg i hi⟩⟩
  · rintro ⟨g, rfl, hg⟩
    obtain ⟨f, hf⟩ := choose_below hg
    exact ⟨f, fun i hi => (hf i hi).1, (hk f (fun i hi => (hf i hi).1) _).2 ⟨g, rfl, fun i hi => (hf i hi).2⟩⟩

theorem ret_ok {β : Type} (f : Nat → β) : Ret w (fun i y => y = f i) (.ok ((List.range w).map f)) := by
  intro ys
  constructor
  · intro h; exact ⟨f, (Outcome.ok.inj h).symm, fun _ _ => rfl⟩
  · rintro ⟨g, rfl, hg⟩; rw [map_range_congr hg]

theorem genFrom_iff {β : Type} {F : Nat → Outcome β} {c i : Nat} {ys : List β} (h : genFrom F c i = .ok ys) :
    ys.length = c ∧ ∀ j (hj : j < ys.length), F (i + j) = .ok ys[j] := by
  induction c generalizing i ys with
  | zero => cases h; exact ⟨rfl, fun j hj => absurd hj (by simp)⟩
  | succ c ih =>
    unfold genFrom at h
    obtain ⟨x, h1, h⟩ := bind_iff.1 h
    obtain ⟨xs, h2, h⟩ := bind_iff.1 h
    cases h
    obtain ⟨h3, h4⟩ := ih h2
    refine ⟨by simp [h3], fun j hj => ?_⟩
    cases j with
    | zero => simpa using h1
    | succ j =>
      have := h4 j (by simpa using hj)
      rw [show i + (j + 1) = i + 1 + j from by omega]
      simpa using this

/-- A list as a function on the lanes. -/
theorem as_map {β : Type} [Inhabited β] {ys : List β} (h : ys.length = w) : ys = (List.range w).map fun i => ys.getD i default := by
  apply List.ext_getElem (by simpa using h)
  intro i h1 h2
  simp [h1]

theorem gen_ret {β : Type} [Inhabited β] (F : Nat → Outcome β) : Ret w (fun i y => F i = .ok y) (gen w F) := by
  intro ys
  constructor
  · intro h
    obtain ⟨h1, h2⟩ := genFrom_iff h
    refine ⟨fun i => ys.getD i default, as_map h1, fun i hi => ?_⟩
    have := h2 i (by omega)
    rw [Nat.zero_add] at this
    show F i = .ok (ys.getD i default)
    rw [this, getD_eq (List.getElem?_eq_getElem (by omega))]
  · rintro ⟨f, rfl, hf⟩
    exact gen_eq w F f hf

theorem inplace_ret {β : Type} [Inhabited β] {body : Nat → List β → Outcome (List β)} {H : Nat → β → Outcome β} {f : Nat → β}
    (hb : ∀ i d a, i < w → d.length = w → d[i]? = some a → body i d = (H i a >>= fun c => .ok (d.set i c))) :
    Ret w (fun i y => H i (f i) = .ok y) (forUp body w 0 ((List.range w).map f)) := by
  have hfi : ∀ i, i < w → ((List.range w).map f)[i]? = some (f i) := fun i hi => map_range_get hi
  intro ys
  constructor
  · intro h
    have key : ∀ c i d, i + c = w → d.length = w → (∀ j, i ≤ j → j < w → d[j]? = some (f j)) → forUp body c i d = .ok ys →
        ys.length = w ∧ ∀ j, (j < i → ys[j]? = d[j]?) ∧ (i ≤ j → j < w → ∃ y, ys[j]? = some y ∧ H j (f j) = .ok y) := by
      intro c
      induction c with
      | zero =>
        intro i d hi hd _ h
        cases h
        exact ⟨hd, fun j => ⟨fun _ => rfl, fun h1 h2 => by omega⟩⟩
      | succ c ih =>
        intro i d hi hd hdf h
        unfold forUp at h
        obtain ⟨d', h1, h⟩ := bind_iff.1 h
        rw [hb i d (f i) (by omega) hd (hdf i (Nat.le_refl _) (by omega))] at h1
        obtain ⟨y, h2, h1⟩ := bind_iff.1 h1
        cases h1
        obtain ⟨h3, h4⟩ := ih (i + 1) (d.set i y) (by omega) (by simpa using hd) (fun j hj hw => by
          rw [List.getElem?_set_ne (by omega)]; exact hdf j (by omega) hw) h
        refine ⟨h3, fun j => ⟨fun hj => ?_, fun hj hw => ?_⟩⟩
        · rw [(h4 j).1 (by omega), List.getElem?_set_ne (by omega)]
        · by_cases hji : j = i
          · subst hji
            refine ⟨y, ?_, h2⟩
            rw [(h4 j).1 (by omega), List.getElem?_set_self (by omega)]
          · exact (h4 j).2 (by omega) hw
    obtain ⟨h1, h2⟩ := key w 0 _ (by omega) (by simp) (fun j _ hj => hfi j hj) h
    refine ⟨fun i => ys.getD i default, as_map h1, fun i hi => ?_⟩
    obtain ⟨y, h3, h4⟩ := (h2 i).2 (Nat.zero_le _) hi
    show H i (f i) = .ok (ys.getD i default)
    rw [h4, getD_eq h3]
  · rintro ⟨g, rfl, hg⟩
    have := forUp_all (body := body) (v := (List.range w).map f) (r := (List.range w).map g) (by simp) fun i hi d hd1 hd2 => by
      simp only [List.length_map, List.length_range] at hi hd1
      have hdi : d[i]? = some (f i) := by rw [hd2 i (Nat.le_refl _), hfi i hi]
      rw [hb i d (f i) hi hd1 hdi, hg i hi, Outcome.bind_ok]
      simp
    simpa using this

theorem wr_set {β : Type} {d : List β} {i : Nat} (c : β) (hi : i < d.length) : wr d i c = .ok (d.set i c) := by rw [wr, if_pos hi]

theorem bind_wr {β : Type} {r : Outcome β} {d : List β} {i : Nat} (hi : i < d.length) :
    (r >>= fun c => wr d i c) = (r >>= fun c => .ok (d.set i c)) := by
  cases r with
  | ok c => simp only [Outcome.bind_ok]; exact wr_set c hi
  | ub u => rfl
  | trap => rfl

theorem compound_ret [Inhabited α] (op : α → α → Outcome α) (f g : Nat → α) (rhs : Option (List α))
    (hr : rhs = some ((List.range w).map g) ∨ rhs = none ∧ ∀ i, i < w → g i = f i) :
    Ret w (fun i y => op (f i) (g i) = .ok y) (compoundWith op ((List.range w).map f) rhs) := by
  have hlen : ((List.range w).map f).length = w := by simp
  unfold compoundWith
  rw [hlen]
  rcases hr with rfl | ⟨rfl, hg⟩
  · refine inplace_ret (H := fun i a => op a (g i)) fun i d a hi hd ha => ?_
    rw [rd_some ha, Outcome.bind_ok, Option.getD_some, rd_some (map_range_get hi), Outcome.bind_ok]
    exact bind_wr (by omega)
  · refine (inplace_ret (w := w) (f := f) (H := fun i a => op a a) fun i d a hi hd ha => ?_).congr fun i hi y => by rw [hg i hi]
    simp only [Option.getD_none]
    rw [rd_some ha, Outcome.bind_ok, Outcome.bind_ok]
    exact bind_wr (by omega)

theorem masked_ret {β : Type} [Inhabited β] {G H : Nat → β → Outcome β} (hG : ∀ i a, i < w → G i a = H i a) (k : Nat → Bool) (f : Nat → β) :
    Ret w (fun i y => (if k i then H i (f i) else .ok (f i)) = .ok y) (maskedUpdate G ((List.range w).map k) ((List.range w).map f)) := by
  have hlen : ((List.range w).map f).length = w := by simp
  unfold maskedUpdate
  rw [hlen]
  refine inplace_ret (H := fun i a => if k i then H i a else .ok a) fun i d a hi hd ha => ?_
  rw [at'_some (map_range_get hi), Outcome.bind_ok]
  cases k i with
  | true =>
    simp only [if_true]
    rw [at'_some ha, Outcome.bind_ok, hG i a hi]
    exact bind_wr (by omega)
  | false =>
    simp only [Bool.false_eq_true, if_false, Outcome.bind_ok]
    obtain ⟨h1, h2⟩ := List.getElem?_eq_some_iff.1 ha
    rw [← h2, List.set_getElem_self]

/-! ### states as functions from lanes -/

variable [Inhabited α]

/-- The simd variables with the given lanes. -/
def packV (w nv : Nat) (σ : Nat → Vars α) : List (List α) :=
  (List.range nv).map fun k => (List.range w).map fun i => (σ i).1.getD k default

/-- The mask variables with the given lanes. -/
def packM (w nm : Nat) (σ : Nat → Vars α) : List (List Bool) :=
  (List.range nm).map fun k => (List.range w).map fun i => (σ i).2.getD k false

/-- The state with the given lanes. -/
def pack (w nv nm : Nat) (σ : Nat → Vars α) : State α := ⟨packV w nv σ, packM w nm σ⟩

omit [Inhabited α] in
/-- The lane has all variables. -/
structure Fits (nv nm : Nat) (l : Vars α) : Prop where
  vars : l.1.length = nv
  masks : l.2.length = nm

theorem pack_congr {σ τ : Nat → Vars α} (h : ∀ i, i < w → σ i = τ i) : pack w nv nm σ = pack w nv nm τ := by
  unfold pack packV packM
  congr 1 <;>
  · refine List.map_congr_left fun k _ => List.map_congr_left fun i hi => ?_
    rw [h i (List.mem_range.1 hi)]

theorem get_packV {k : Nat} {σ : Nat → Vars α} {f : Nat → α} (hk : k < nv) (hf : ∀ i, i < w → (σ i).1[k]? = some (f i)) :
    get (packV w nv σ) k = .ok ((List.range w).map f) := by
  unfold SimdProg.get packV
  rw [List.getElem?_map, List.getElem?_range hk]
  simp only [Option.map_some]
  congr 1
  exact List.map_congr_left fun i hi => getD_eq (hf i (List.mem_range.1 hi))

omit [Inhabited α] in
theorem get_packM {k : Nat} {σ : Nat → Vars α} {f : Nat → Bool} (hk : k < nm) (hf : ∀ i, i < w → (σ i).2[k]? = some (f i)) :
    get (packM w nm σ) k = .ok ((List.range w).map f) := by
  unfold SimdProg.get packM
  rw [List.getElem?_map, List.getElem?_range hk]
  simp only [Option.map_some]
  congr 1
  exact List.map_congr_left fun i hi => getD_eq (hf i (List.mem_range.1 hi))

theorem varV_ret {k : Nat} {σ : Nat → Vars α} (hσ : ∀ i, i < w → Fits nv nm (σ i)) (hk : k < nv) :
    Ret w (fun i y => (σ i).1[k]? = some y) (get (packV w nv σ) k) := by
  have h : ∀ i, i < w → (σ i).1[k]? = some ((σ i).1.getD k default) := fun i hi => by
    have : k < (σ i).1.length := by rw [(hσ i hi).vars]; exact hk
    rw [getD_eq (List.getElem?_eq_getElem this)]
    exact List.getElem?_eq_getElem this
  rw [get_packV hk h]
  exact (ret_ok _).congr fun i hi y => by rw [h i hi]; exact ⟨fun h => by rw [h], fun h => (Option.some.inj h).symm⟩

theorem varM_ret {k : Nat} {σ : Nat → Vars α} (hσ : ∀ i, i < w → Fits nv nm (σ i)) (hk : k < nm) :
    Ret w (fun i y => (σ i).2[k]? = some y) (get (packM w nm σ) k) := by
  have h : ∀ i, i < w → (σ i).2[k]? = some ((σ i).2.getD k false) := fun i hi => by
    have : k < (σ i).2.length := by rw [(hσ i hi).masks]; exact hk
    rw [getD_eq (List.getElem?_eq_getElem this)]
    exact List.getElem?_eq_getElem this
  rw [get_packM hk h]
  exact (ret_ok _).congr fun i hi y => by rw [h i hi]; exact ⟨fun h => by rw [h], fun h => (Option.some.inj h).symm⟩

theorem packV_set {k : Nat} {σ : Nat → Vars α} {f : Nat → α} (hl : ∀ i, i < w → (σ i).1.length = nv) (hk : k < nv) :
    (packV w nv σ).set k ((List.range w).map f) = packV w nv fun i => ((σ i).1.set k (f i), (σ i).2) := by
  apply List.ext_getElem?
  intro j
  rw [List.getElem?_set]
  unfold packV
  simp only [List.length_map, List.length_range, List.getElem?_map]
  by_cases hj : j < nv
  · rw [List.getElem?_range hj]
    simp only [Option.map_some]
    split
    · rename_i h
      subst h
      congr 1
      refine List.map_congr_left fun i hi => ?_
      rw [getD_set (by rw [hl i (List.mem_range.1 hi)]; exact hk), if_pos rfl]
    · rename_i h
      congr 1
      refine List.map_congr_left fun i hi => ?_
      rw [getD_set (by rw [hl i (List.mem_range.1 hi)]; exact hk), if_neg h]
  · rw [if_neg (by omega)]
    simp [List.getElem?_eq_none (l := List.range nv) (by simpa using hj)]

omit [Inhabited α] in
theorem packM_set {k : Nat} {σ : Nat → Vars α} {f : Nat → Bool} (hl : ∀ i, i < w → (σ i).2.length = nm) (hk : k < nm) :
    (packM w nm σ).set k ((List.range w).map f) = packM w nm fun i => ((σ i).1, (σ i).2.set k (f i)) := by
  apply List.ext_getElem?
  intro j
  rw [List.getElem?_set]
  unfold packM
  simp only [List.length_map, List.length_range, List.getElem?_map]
  by_cases hj : j < nm
  · rw [List.getElem?_range hj]
    simp only [Option.map_some]
    split
    · rename_i h
      subst h
      congr 1
      refine List.map_congr_left fun i hi => ?_
      rw [getD_set (by rw [hl i (List.mem_range.1 hi)]; exact hk), if_pos rfl]
    · rename_i h
      congr 1
      refine List.map_congr_left fun i hi => ?_
      rw [getD_set (by rw [hl i (List.mem_range.1 hi)]; exact hk), if_neg h]
  · rw [if_neg (by omega)]
    simp [List.getElem?_eq_none (l := List.range nm) (by simpa using hj)]

omit [Inhabited α] in
theorem lane_fits {s : State α} (hs : Shape nv nm w s) {i : Nat} (hi : i < w) : Fits nv nm (lane s i) := by
  have h1 := filterMap_lane (i := i) (xs := s.vars) (fun x hx => by rw [hs.var x hx]; exact hi) 0
  have h2 := filterMap_lane (i := i) (xs := s.masks) (fun x hx => by rw [hs.mask x hx]; exact hi) 0
  exact ⟨h1.2.trans hs.vars, h2.2.trans hs.masks⟩

theorem pack_lane {s : State α} (hs : Shape nv nm w s) : pack w nv nm (lane s) = s := by
  cases s with
  | mk vars masks =>
    unfold pack
    congr 1
    · apply List.ext_getElem (by simpa [packV] using hs.vars.symm)
      intro k h1 h2
      have hk : vars[k]? = some vars[k] := List.getElem?_eq_getElem h2
      have hkl := hs.var _ (List.getElem_mem h2)
      simp only [packV, List.getElem_map, List.getElem_range]
      apply List.ext_getElem (by simpa using hkl.symm)
      intro i g1 g2
      simp only [List.length_map, List.length_range] at g1
      simp only [List.getElem_map, List.getElem_range]
      apply getD_eq
      unfold lane
      rw [(filterMap_lane (i := i) (xs := vars) (fun x hx => by rw [hs.var x hx]; exact g1) k).1, hk]
      simp [g2]
    · apply List.ext_getElem (by simpa [packM] using hs.masks.symm)
      intro k h1 h2
      have hk : masks[k]? = some masks[k] := List.getElem?_eq_getElem h2
      have hkl := hs.mask _ (List.getElem_mem h2)
      simp only [packM, List.getElem_map, List.getElem_range]
      apply List.ext_getElem (by simpa using hkl.symm)
      intro i g1 g2
      simp only [List.length_map, List.length_range] at g1
      simp only [List.getElem_map, List.getElem_range]
      apply getD_eq
      unfold lane
      rw [(filterMap_lane (i := i) (xs := masks) (fun x hx => by rw [hs.mask x hx]; exact g1) k).1, hk]
      simp [g2]

theorem lane_pack {τ : Nat → Vars α} (hτ : ∀ i, i < w → Fits nv nm (τ i)) {i : Nat} (hi : i < w) : lane (pack w nv nm τ) i = τ i := by
  have h1 := fun k => filterMap_lane (i := i) (xs := packV w nv τ) (fun x hx => by
    simp only [packV, List.mem_map] at hx
    obtain ⟨_, _, rfl⟩ := hx
    simpa using hi) k
  have h2 := fun k => filterMap_lane (i := i) (xs := packM w nm τ) (fun x hx => by
    simp only [packM, List.mem_map] at hx
    obtain ⟨_, _, rfl⟩ := hx
    simpa using hi) k
  unfold lane pack
  apply Prod.ext
  · apply List.ext_getElem ((h1 0).2.trans (by simp [packV, (hτ i hi).vars]))
    intro k g1 g2
    apply Option.some.inj
    rw [← List.getElem?_eq_getElem, ← List.getElem?_eq_getElem, (h1 k).1]
    have hk : k < nv := by rw [← (hτ i hi).vars]; exact g2
    simp only [packV, List.getElem?_map, List.getElem?_range hk, Option.map_some, Option.bind_some, List.getElem?_range hi]
    rw [List.getD_eq_getElem?_getD, List.getElem?_eq_getElem g2]; rfl
  · apply List.ext_getElem ((h2 0).2.trans (by simp [packM, (hτ i hi).masks]))
    intro k g1 g2
    apply Option.some.inj
    rw [← List.getElem?_eq_getElem, ← List.getElem?_eq_getElem, (h2 k).1]
    have hk : k < nm := by rw [← (hτ i hi).masks]; exact g2
    simp only [packM, List.getElem?_map, List.getElem?_range hk, Option.map_some, Option.bind_some, List.getElem?_range hi]
    rw [List.getD_eq_getElem?_getD, List.getElem?_eq_getElem g2]; rfl

theorem pack_shape (τ : Nat → Vars α) : Shape nv nm w (pack w nv nm τ) := by
  refine ⟨by simp [pack, packV], fun x hx => ?_, by simp [pack, packM], fun b hb => ?_⟩
  · simp only [pack, packV, List.mem_map] at hx
    obtain ⟨_, _, rfl⟩ := hx
    simp
  · simp only [pack, packM, List.mem_map] at hb
    obtain ⟨_, _, rfl⟩ := hb
    simp

/-! ### expressions and conditions -/

theorem ex_ret {σ : Nat → Vars α} (hσ : ∀ i, i < w → Fits nv nm (σ i)) {e : Ex α} (he : ExUses nv e) :
    Ret w (fun i y => Value i (σ i).1 e y) (e.simd w (packV w nv σ)) := by
  induction e with
  | var k =>
    unfold Ex.simd
    exact (varV_ret hσ he).congr fun i hi y => ⟨.var, fun h => by cases h with | var h => exact h⟩
  | gen f =>
    unfold Ex.simd
    exact (gen_ret f).congr fun i hi y => ⟨.gen, fun h => by cases h with | gen h => exact h⟩
  | un f a iha =>
    unfold Ex.simd
    refine ((iha he).then (Q := fun i x y => f x = .ok y) fun g hg => ?_).congr fun i hi y => ?_
    · rw [List.length_map, List.length_range]
      refine (gen_ret _).congr fun i hi y => ?_
      rw [rd_some (map_range_get hi), Outcome.bind_ok]
    · exact ⟨fun ⟨x, h1, h2⟩ => .un h1 h2, fun h => by cases h with | un h1 h2 => exact ⟨_, h1, h2⟩⟩
  | bin f a b iha ihb =>
    unfold Ex.simd
    refine ((iha he.1).then (Q := fun i x z => ∃ y, Value i (σ i).1 b y ∧ f x y = .ok z) fun g hg =>
      (ihb he.2).then (Q := fun i y z => f (g i) y = .ok z) fun g' hg' => ?_).congr fun i hi y => ?_
    · rw [List.length_map, List.length_range]
      refine (gen_ret _).congr fun i hi y => ?_
      rw [at'_some (map_range_get hi), Outcome.bind_ok, at'_some (map_range_get hi), Outcome.bind_ok]
    · exact ⟨fun ⟨x, h1, y, h2, h3⟩ => .bin h1 h2 h3, fun h => by cases h with | bin h1 h2 h3 => exact ⟨_, h1, _, h2, h3⟩⟩

theorem mk_ret {σ : Nat → Vars α} (hσ : ∀ i, i < w → Fits nv nm (σ i)) {m : Mk α} (hm : MkUses nv nm m) :
    Ret w (fun i y => Cond i (σ i) m y) (m.simd w (pack w nv nm σ)) := by
  induction m with
  | mvar j =>
    unfold Mk.simd
    exact (varM_ret hσ hm).congr fun i hi y => ⟨.mvar, fun h => by cases h with | mvar h => exact h⟩
  | cmp r a b =>
    unfold Mk.simd
    refine ((ex_ret hσ hm.1).then (Q := fun i x z => ∃ y, Value i (σ i).1 b y ∧ z = r x y) fun g hg =>
      (ex_ret hσ hm.2).then (Q := fun i y z => z = r (g i) y) fun g' hg' => ?_).congr fun i hi y => ?_
    · unfold compareWith
      rw [List.length_map, List.length_range]
      refine (gen_ret _).congr fun i hi y => ?_
      rw [rd_some (map_range_get hi), Outcome.bind_ok, rd_some (map_range_get hi), Outcome.bind_ok]
      exact ⟨fun h => (Outcome.ok.inj h).symm, fun h => by rw [h]⟩
    · exact ⟨fun ⟨x, h1, y, h2, h3⟩ => h3 ▸ .cmp h1 h2, fun h => by cases h with | cmp h1 h2 => exact ⟨_, h1, _, h2, rfl⟩⟩
  | and a b iha ihb =>
    unfold Mk.simd
    refine ((iha hm.1).then (Q := fun i x z => ∃ y, Cond i (σ i) b y ∧ z = (x && y)) fun g hg =>
      (ihb hm.2).then (Q := fun i y z => z = (g i && y)) fun g' hg' => ?_).congr fun i hi y => ?_
    · rw [maskBinary_map]; exact ret_ok _
    · exact ⟨fun ⟨x, h1, y, h2, h3⟩ => h3 ▸ .and h1 h2, fun h => by cases h with | and h1 h2 => exact ⟨_, h1, _, h2, rfl⟩⟩
  | or a b iha ihb =>
    unfold Mk.simd
    refine ((iha hm.1).then (Q := fun i x z => ∃ y, Cond i (σ i) b y ∧ z = (x || y)) fun g hg =>
      (ihb hm.2).then (Q := fun i y z => z = (g i || y)) fun g' hg' => ?_).congr fun i hi y => ?_
    · rw [maskBinary_map]; exact ret_ok _
    · exact ⟨fun ⟨x, h1, y, h2, h3⟩ => h3 ▸ .or h1 h2, fun h => by cases h with | or h1 h2 => exact ⟨_, h1, _, h2, rfl⟩⟩
  | not a iha =>
    unfold Mk.simd
    refine ((iha hm).then (Q := fun i x z => z = !x) fun g hg => ?_).congr fun i hi y => ?_
    · rw [maskNot_map]; exact ret_ok _
    · exact ⟨fun ⟨x, h1, h3⟩ => h3 ▸ .not h1, fun h => by cases h with | not h1 => exact ⟨_, h1, rfl⟩⟩

/-! ### programs without loops -/

theorem setV_iff {σ : Nat → Vars α} (hσ : ∀ i, i < w → Fits nv nm (σ i)) {k : Nat} (hk : k < nv) {P : Nat → α → Prop} {r : Outcome (List α)}
    (hr : Ret w P r) {s : State α} : (do let x ← r; .ok (State.mk ((packV w nv σ).set k x) (packM w nm σ))) = Outcome.ok s ↔
      ∃ τ, s = pack w nv nm τ ∧ ∀ i, i < w → ∃ v, P i v ∧ τ i = ((σ i).1.set k v, (σ i).2) := by
  rw [hr.bind]
  constructor
  · rintro ⟨f, hf, h⟩
    rw [packV_set (fun i hi => (hσ i hi).vars) hk] at h
    exact ⟨fun i => ((σ i).1.set k (f i), (σ i).2), (Outcome.ok.inj h).symm, fun i hi => ⟨f i, hf i hi, rfl⟩⟩
  · rintro ⟨τ, rfl, hτ⟩
    obtain ⟨f, hf⟩ := choose_below hτ
    refine ⟨f, fun i hi => (hf i hi).1, ?_⟩
    rw [packV_set (fun i hi => (hσ i hi).vars) hk, pack_congr fun i hi => (hf i hi).2]
    rfl

theorem setM_iff {σ : Nat → Vars α} (hσ : ∀ i, i < w → Fits nv nm (σ i)) {k : Nat} (hk : k < nm) {P : Nat → Bool → Prop}
    {r : Outcome (List Bool)} (hr : Ret w P r) {s : State α} :
    (do let x ← r; .ok (State.mk (packV w nv σ) ((packM w nm σ).set k x))) = Outcome.ok s ↔
      ∃ τ, s = pack w nv nm τ ∧ ∀ i, i < w → ∃ v, P i v ∧ τ i = ((σ i).1, (σ i).2.set k v) := by
  rw [hr.bind]
  constructor
  · rintro ⟨f, hf, h⟩
    rw [packM_set (fun i hi => (hσ i hi).masks) hk] at h
    exact ⟨fun i => ((σ i).1, (σ i).2.set k (f i)), (Outcome.ok.inj h).symm, fun i hi => ⟨f i, hf i hi, rfl⟩⟩
  · rintro ⟨τ, rfl, hτ⟩
    obtain ⟨f, hf⟩ := choose_below hτ
    refine ⟨f, fun i hi => (hf i hi).1, ?_⟩
    rw [packM_set (fun i hi => (hσ i hi).masks) hk, pack_congr fun i hi => (hf i hi).2]
    rfl

omit [Inhabited α] in
theorem setV_self {l : Vars α} {k : Nat} {x : α} (h : l.1[k]? = some x) : (l.1.set k x, l.2) = l := by
  obtain ⟨h1, h2⟩ := List.getElem?_eq_some_iff.1 h
  rw [← h2, List.set_getElem_self]

omit [Inhabited α] in
theorem setM_self {l : Vars α} {k : Nat} {x : Bool} (h : l.2[k]? = some x) : (l.1, l.2.set k x) = l := by
  obtain ⟨h1, h2⟩ := List.getElem?_eq_some_iff.1 h
  rw [← h2, List.set_getElem_self]

omit [Inhabited α] in
theorem isVar_eq {e : Ex α} {k : Nat} (h : e.isVar k = true) : e = .var k := by
  cases e with
  | var j => simp only [Ex.isVar, beq_iff_eq] at h; rw [h]
  | _ => cases h

omit [Inhabited α] in
theorem mkIsVar_eq {m : Mk α} {k : Nat} (h : m.isVar k = true) : m = .mvar k := by
  cases m with
  | mvar j => simp only [Mk.isVar, beq_iff_eq] at h; rw [h]
  | _ => cases h

omit [Inhabited α] in
theorem run_fits {I : Prop} {i : Nat} {p : Stmt α} {l l' : Vars α} (h : Run I i p l l') : Fits nv nm l → Fits nv nm l' := by
  induction h with
  | skip => exact id
  | seq _ _ iha ihb => exact fun h => ihb (iha h)
  | again _ _ _ _ iha ihb => exact fun h => ihb (iha h)
  | where_false => exact id
  | whereCompound_false => exact id
  | whereMask_false => exact id
  | leave => exact id
  | _ => exact fun h => ⟨by simpa using h.vars, by simpa using h.masks⟩

/-- A program without loops ends exactly if it ends in all lanes, with the values of the lanes. -/
theorem run_simple {I : Prop} {p : Stmt α} (hl : NoLoops p) (hp : Uses nv nm p) (n : Nat) : ∀ (σ : Nat → Vars α) (s : State α),
    (∀ i, i < w → Fits nv nm (σ i)) →
    (p.run w n (pack w nv nm σ) = .ok s ↔ ∃ τ, s = pack w nv nm τ ∧ ∀ i, i < w → Run I i p (σ i) (τ i)) := by
  induction p with
  | skip =>
    intro σ s hσ
    unfold Stmt.run
    constructor
    · intro h; cases h; exact ⟨σ, rfl, fun i hi => .skip⟩
    · rintro ⟨τ, rfl, hτ⟩
      congr 1
      refine pack_congr fun i hi => ?_
      have := hτ i hi
      generalize τ i = l at this
      cases this; rfl
  | seq a b iha ihb =>
    intro σ s hσ
    unfold Stmt.run
    rw [bind_iff]
    constructor
    · rintro ⟨s1, h1, h2⟩
      obtain ⟨τ, rfl, hτ⟩ := (iha hl.1 hp.1 σ s1 hσ).1 h1
      obtain ⟨ρ, rfl, hρ⟩ := (ihb hl.2 hp.2 τ s fun i hi => run_fits (hτ i hi) (hσ i hi)).1 h2
      exact ⟨ρ, rfl, fun i hi => .seq (hτ i hi) (hρ i hi)⟩
    · rintro ⟨ρ, rfl, hρ⟩
      have hmid : ∀ i, i < w → ∃ l, Run I i a (σ i) l ∧ Run I i b l (ρ i) := fun i hi => by
        cases hρ i hi with | seq h1 h2 => exact ⟨_, h1, h2⟩
      obtain ⟨τ, hτ⟩ := choose_below hmid
      exact ⟨_, (iha hl.1 hp.1 σ _ hσ).2 ⟨τ, rfl, fun i hi => (hτ i hi).1⟩,
        (ihb hl.2 hp.2 τ _ fun i hi => run_fits (hτ i hi).1 (hσ i hi)).2 ⟨ρ, rfl, fun i hi => (hτ i hi).2⟩⟩
  | assign k e =>
    intro σ s hσ
    unfold Stmt.run
    refine (setV_iff hσ hp.1 (ex_ret hσ hp.2)).trans (exists_congr fun τ => and_congr_right fun _ => forall_congr' fun i => forall_congr' fun hi => ?_)
    generalize τ i = l
    constructor
    · rintro ⟨v, h, rfl⟩; exact .assign h
    · intro h; cases h with | assign h => exact ⟨_, h, rfl⟩
  | compound f k e =>
    intro σ s hσ
    unfold Stmt.run
    have hr := (ex_ret hσ hp.2).then (Q := fun i y v => ∃ x, (σ i).1[k]? = some x ∧ f x y = .ok v)
      (k := fun y => do
        let x ← SimdProg.get (packV w nv σ) k
        compoundWith f x (if e.isVar k then none else some y)) fun g hg =>
      (varV_ret hσ hp.1).then (Q := fun i x v => f x (g i) = .ok v) fun g' hg' => by
        refine compound_ret f g' g _ ?_
        split
        · rename_i he
          rw [isVar_eq he] at hg
          refine .inr ⟨rfl, fun i hi => ?_⟩
          cases hg i hi with | var h => exact Option.some.inj (h.symm.trans (hg' i hi))
        · exact .inl rfl
    have := setV_iff (nm := nm) hσ hp.1 hr (s := s)
    simp only [Outcome.bind_assoc] at this
    refine this.trans (exists_congr fun τ => and_congr_right fun _ => forall_congr' fun i => forall_congr' fun hi => ?_)
    generalize τ i = l
    constructor
    · rintro ⟨v, ⟨y, h1, x, h2, h3⟩, rfl⟩; exact .compound h1 h2 h3
    · intro h; cases h with | compound h1 h2 h3 => exact ⟨_, ⟨_, h1, _, h2, h3⟩, rfl⟩
  | whereAssign m k e =>
    intro σ s hσ
    unfold Stmt.run
    have hr := (mk_ret hσ hp.1).then (Q := fun i c v => ∃ y, Value i (σ i).1 e y ∧ ∃ x, (σ i).1[k]? = some x ∧ (if c then y else x) = v)
      (k := fun b => do
        let y ← e.simd w (packV w nv σ)
        let x ← SimdProg.get (packV w nv σ) k
        Simd.whereAssign b x y) fun c hc =>
      (ex_ret hσ hp.2.2).then (Q := fun i y v => ∃ x, (σ i).1[k]? = some x ∧ (if c i then y else x) = v) fun g hg =>
      (varV_ret hσ hp.2.1).then (Q := fun i x v => (if c i then g i else x) = v) fun g' hg' =>
        (masked_ret (H := fun i _ => .ok (g i)) (fun i a hi => at'_some (map_range_get hi)) c g').congr fun i hi y => by
          split <;> exact ⟨fun h => Outcome.ok.inj h, fun h => by rw [h]⟩
    have := setV_iff (nm := nm) hσ hp.2.1 hr (s := s)
    simp only [Outcome.bind_assoc] at this
    refine this.trans (exists_congr fun τ => and_congr_right fun _ => forall_congr' fun i => forall_congr' fun hi => ?_)
    generalize τ i = l
    constructor
    · rintro ⟨v, ⟨c, h1, y, h2, x, h3, rfl⟩, rfl⟩
      cases c with
      | true => exact .where_true h1 h2
      | false =>
        simp only [Bool.false_eq_true, if_false]
        rw [setV_self h3]; exact .where_false h1 h2
    · intro h
      obtain ⟨x, hx⟩ : ∃ x, (σ i).1[k]? = some x := ⟨_, List.getElem?_eq_getElem (by rw [(hσ i hi).vars]; exact hp.2.1)⟩
      cases h with
      | where_true h1 h2 => exact ⟨_, ⟨_, h1, _, h2, x, hx, rfl⟩, rfl⟩
      | where_false h1 h2 => exact ⟨_, ⟨_, h1, _, h2, x, hx, rfl⟩, (setV_self hx).symm⟩
  | whereCompound f m k e =>
    intro σ s hσ
    unfold Stmt.run
    have hr := (mk_ret hσ hp.1).then
      (Q := fun i c v => ∃ y, Value i (σ i).1 e y ∧ ∃ x, (σ i).1[k]? = some x ∧ (if c then f x y else .ok x) = .ok v)
      (k := fun b => do
        let y ← e.simd w (packV w nv σ)
        let x ← SimdProg.get (packV w nv σ) k
        Simd.whereOpAssign f b x y) fun c hc =>
      (ex_ret hσ hp.2.2).then (Q := fun i y v => ∃ x, (σ i).1[k]? = some x ∧ (if c i then f x y else .ok x) = .ok v) fun g hg =>
      (varV_ret hσ hp.2.1).then (Q := fun i x v => (if c i then f x (g i) else .ok x) = .ok v) fun g' hg' =>
        masked_ret (H := fun i x => f x (g i)) (fun i a hi => by rw [at'_some (map_range_get hi), Outcome.bind_ok]) c g'
    have := setV_iff (nm := nm) hσ hp.2.1 hr (s := s)
    simp only [Outcome.bind_assoc] at this
    refine this.trans (exists_congr fun τ => and_congr_right fun _ => forall_congr' fun i => forall_congr' fun hi => ?_)
    generalize τ i = l
    constructor
    · rintro ⟨v, ⟨c, h1, y, h2, x, h3, h4⟩, rfl⟩
      cases c with
      | true => exact .whereCompound_true h1 h2 h3 h4
      | false =>
        simp only [Bool.false_eq_true, if_false, Outcome.ok.injEq] at h4
        subst h4
        rw [setV_self h3]; exact .whereCompound_false h1 h2
    · intro h
      obtain ⟨x, hx⟩ : ∃ x, (σ i).1[k]? = some x := ⟨_, List.getElem?_eq_getElem (by rw [(hσ i hi).vars]; exact hp.2.1)⟩
      cases h with
      | whereCompound_true h1 h2 h3 h4 => exact ⟨_, ⟨_, h1, _, h2, _, h3, h4⟩, rfl⟩
      | whereCompound_false h1 h2 => exact ⟨_, ⟨_, h1, _, h2, x, hx, rfl⟩, (setV_self hx).symm⟩
  | setMask j m =>
    intro σ s hσ
    unfold Stmt.run
    refine (setM_iff hσ hp.1 (mk_ret hσ hp.2)).trans (exists_congr fun τ => and_congr_right fun _ => forall_congr' fun i => forall_congr' fun hi => ?_)
    generalize τ i = l
    constructor
    · rintro ⟨v, h, rfl⟩; exact .setMask h
    · intro h; cases h with | setMask h => exact ⟨_, h, rfl⟩
  | whereMask m j m' =>
    intro σ s hσ
    unfold Stmt.run
    have hr := (mk_ret hσ hp.1).then (Q := fun i c v => ∃ y, Cond i (σ i) m' y ∧ ∃ x, (σ i).2[j]? = some x ∧ (if c then y else x) = v)
      (k := fun b => do
        let y ← m'.simd w (pack w nv nm σ)
        let x ← SimdProg.get (packM w nm σ) j
        assignMask (m.isVar j) b x y) fun c hc =>
      (mk_ret hσ hp.2.2).then (Q := fun i y v => ∃ x, (σ i).2[j]? = some x ∧ (if c i then y else x) = v) fun g hg =>
      (varM_ret hσ hp.2.1).then (Q := fun i x v => (if c i then g i else x) = v) fun g' hg' => by
        have key := (masked_ret (H := fun i _ => .ok (g i)) (G := fun i _ => at' ((List.range w).map g) i)
          (fun i a hi => at'_some (map_range_get hi)) c g').congr fun i hi y =>
          (show (if c i then Outcome.ok (g i) else .ok (g' i)) = .ok y ↔ (if c i then g i else g' i) = y by
            split <;> exact ⟨fun h => Outcome.ok.inj h, fun h => by rw [h]⟩)
        unfold assignMask
        split
        · rename_i he
          rw [mkIsVar_eq he] at hc
          rw [whereAssignSelf_eq _ _ (by simp)]
          have : (List.range w).map g' = (List.range w).map c := map_range_congr fun i hi => by
            cases hc i hi with | mvar h => exact Option.some.inj ((hg' i hi).symm.trans h)
          unfold Simd.whereAssign
          rw [show maskedUpdate (fun i x => at' ((List.range w).map g) i) ((List.range w).map g') ((List.range w).map g') =
            maskedUpdate (fun i x => at' ((List.range w).map g) i) ((List.range w).map c) ((List.range w).map g') by rw [this]]
          exact key
        · exact key
    have := setM_iff (nm := nm) hσ hp.2.1 hr (s := s)
    simp only [Outcome.bind_assoc] at this
    refine this.trans (exists_congr fun τ => and_congr_right fun _ => forall_congr' fun i => forall_congr' fun hi => ?_)
    generalize τ i = l
    constructor
    · rintro ⟨v, ⟨c, h1, y, h2, x, h3, rfl⟩, rfl⟩
      cases c with
      | true => exact .whereMask_true h1 h2
      | false =>
        simp only [Bool.false_eq_true, if_false]
        rw [setM_self h3]; exact .whereMask_false h1 h2
    · intro h
      obtain ⟨x, hx⟩ : ∃ x, (σ i).2[j]? = some x := ⟨_, List.getElem?_eq_getElem (by rw [(hσ i hi).masks]; exact hp.2.1)⟩
      cases h with
      | whereMask_true h1 h2 => exact ⟨_, ⟨_, h1, _, h2, x, hx, rfl⟩, rfl⟩
      | whereMask_false h1 h2 => exact ⟨_, ⟨_, h1, _, h2, x, hx, rfl⟩, (setM_self hx).symm⟩
  | loop m body => exact hl.elim

/-! ### from the simd program to the lanes -/

theorem cond_iff {σ : Nat → Vars α} (hσ : ∀ i, i < w → Fits nv nm (σ i)) {m : Mk α} (hm : MkUses nv nm m) {c : Bool} :
    (do let b ← m.simd w (pack w nv nm σ); Simd.anyOf b) = Outcome.ok c ↔
      ∃ b : Nat → Bool, (∀ i, i < w → Cond i (σ i) m (b i)) ∧ c = decide (∃ i, i < w ∧ b i = true) := by
  rw [(mk_ret hσ hm).bind]
  refine exists_congr fun b => and_congr_right fun _ => ?_
  rw [anyOf_eq]
  have : (true ∈ (List.range w).map b) ↔ ∃ i, i < w ∧ b i = true := by simp
  constructor
  · intro h; rw [← Outcome.ok.inj h, decide_eq_decide]; exact this
  · intro h; rw [h]; congr 1; rw [decide_eq_decide]; exact this

theorem run_sound {p : Stmt α} (hp : Uses nv nm p) (n : Nat) : ∀ (σ : Nat → Vars α) (s : State α),
    (∀ i, i < w → Fits nv nm (σ i)) → p.run w n (pack w nv nm σ) = .ok s →
      ∃ τ, s = pack w nv nm τ ∧ ∀ i, i < w → Run True i p (σ i) (τ i) := by
  induction p with
  | seq a b iha ihb =>
    intro σ s hσ h
    unfold Stmt.run at h
    obtain ⟨s1, h1, h2⟩ := bind_iff.1 h
    obtain ⟨τ, rfl, hτ⟩ := iha hp.1 σ s1 hσ h1
    obtain ⟨ρ, rfl, hρ⟩ := ihb hp.2 τ s (fun i hi => run_fits (hτ i hi) (hσ i hi)) h2
    exact ⟨ρ, rfl, fun i hi => .seq (hτ i hi) (hρ i hi)⟩
  | loop m body ih =>
    intro σ s hσ h
    unfold Stmt.run at h
    have key : ∀ (f : Nat) (σ : Nat → Vars α), (∀ i, i < w → Fits nv nm (σ i)) →
        iter (fun s => do let b ← m.simd w s; Simd.anyOf b) (body.run w n) f (pack w nv nm σ) = .ok s →
        ∃ τ, s = pack w nv nm τ ∧ ∀ i, i < w → Run True i (.loop m body) (σ i) (τ i) := by
      intro f
      induction f with
      | zero => intro σ _ h; cases h
      | succ f ihf =>
        intro σ hσ h
        unfold iter at h
        obtain ⟨c, h1, h⟩ := bind_iff.1 h
        obtain ⟨b, hb, rfl⟩ := (cond_iff hσ hp.1).1 h1
        by_cases hany : ∃ i, i < w ∧ b i = true
        · rw [if_pos (by simpa using hany)] at h
          obtain ⟨s1, h2, h⟩ := bind_iff.1 h
          obtain ⟨τ, rfl, hτ⟩ := ih hp.2 σ s1 hσ h2
          obtain ⟨ρ, rfl, hρ⟩ := ihf τ (fun i hi => run_fits (hτ i hi) (hσ i hi)) h
          exact ⟨ρ, rfl, fun i hi => .again (hb i hi) (fun _ => trivial) (hτ i hi) (hρ i hi)⟩
        · rw [if_neg (by simpa using hany)] at h
          refine ⟨σ, (Outcome.ok.inj h).symm, fun i hi => ?_⟩
          have : b i = false := by
            cases hbi : b i with
            | false => rfl
            | true => exact absurd ⟨i, hi, hbi⟩ hany
          exact .leave (this ▸ hb i hi)
    exact key n σ hσ h
  | _ => intro σ s hσ h; exact (run_simple (I := True) (by trivial) hp n σ s hσ).1 h

end Vir.LaneProg
