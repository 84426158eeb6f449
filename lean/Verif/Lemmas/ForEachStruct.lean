import Verif.Model.ForEachStruct
import Verif.Lemmas.ForEachGen
import Verif.Props.Simdize
import Verif.Spec.Structs

/-!
# Lemmas about `for_each` on arrays of structs
-/

namespace Vir.ForEachStruct
open Vir.ForEach Vir.Spec Vir.Simdize

variable {σ α : Type} {c : Nat}

theorem getD_lt {β : Type} {l : List β} {i : Nat} {d : β} (h : i < l.length) : l.getD i d = l[i] := by simp [h]

/-! ## Arrays of structs -/

@[simp] theorem flat_nil : flat ([] : List (Vector α c)) = [] := rfl
@[simp] theorem flat_cons (x : Vector α c) (xs : List (Vector α c)) : flat (x :: xs) = x.toList ++ flat xs := rfl
@[simp] theorem flat_append (xs ys : List (Vector α c)) : flat (xs ++ ys) = flat xs ++ flat ys := by
  simp [flat]

@[simp] theorem flat_length (xs : List (Vector α c)) : (flat xs).length = xs.length * c := by
  induction xs with
  | nil => simp
  | cons x xs ih => simp [ih, Nat.add_mul, Nat.add_comm]

theorem flat_getElem? {xs : List (Vector α c)} {i m : Nat} (hm : m < c) :
    (flat xs)[i * c + m]? = (xs[i]?).map (·[m]) := by
  induction xs generalizing i with
  | nil => simp
  | cons x xs ih =>
    cases i with
    | zero => simp [List.getElem?_append_left, hm]
    | succ i =>
      rw [flat_cons, Nat.add_mul, Nat.one_mul, List.getElem?_append_right (by simp; omega)]
      have : i * c + c + m - x.toList.length = i * c + m := by simp; omega
      rw [this, ih]
      simp

theorem flat_eq {xs : List (Vector α c)} {mem : List α} (hc : 0 < c) (hl : mem.length = xs.length * c)
    (h : ∀ i m : Nat, i < xs.length → (hm : m < c) → mem[i * c + m]? = (xs[i]?).map (·[m])) : mem = flat xs := by
  apply List.ext_getElem?
  intro j
  by_cases hj : j < xs.length * c
  · have h1 := Nat.div_add_mod j c
    have h2 := Nat.mod_lt j hc
    have h3 : j / c < xs.length := (Nat.div_lt_iff_lt_mul hc).2 hj
    rw [Nat.mul_comm] at h1
    rw [← h1, h _ _ h3 h2, flat_getElem? h2]
  · rw [List.getElem?_eq_none (by omega), List.getElem?_eq_none (by simp; omega)]

@[simp] theorem members_length (xs : List (Vector α c)) : (members xs).length = c := by simp [members]

theorem members_getElem? (xs : List (Vector α c)) {m : Nat} (hm : m < c) :
    (members xs)[m]? = some (xs.map fun x => x[m]) := by
  simp [members, hm]

theorem members_shape (xs : List (Vector α c)) : Shape c xs.length (members xs) := by
  refine ⟨members_length xs, fun w hw => ?_⟩
  obtain ⟨m, hm, rfl⟩ := List.mem_iff_getElem.1 hw
  simp [members]

theorem laneOf_members (xs : List (Vector α c)) {m : Nat} (hm : m < c) (i : Nat) :
    laneOf (members xs) m i = (xs[i]?).map (·[m]) := by
  simp [laneOf, members_getElem? xs hm]

theorem members_inj (hc : 0 < c) {xs ys : List (Vector α c)} (h : members xs = members ys) : xs = ys := by
  apply List.ext_getElem?
  intro i
  have key : ∀ m : Nat, (hm : m < c) → (xs[i]?).map (fun x => x[m]) = (ys[i]?).map (fun x => x[m]) := fun m hm => by
    rw [← laneOf_members xs hm, ← laneOf_members ys hm, h]
  cases hx : xs[i]? with
  | none =>
    cases hy : ys[i]? with
    | none => rfl
    | some y => have := key 0 hc; rw [hx, hy] at this; simp at this
  | some x =>
    cases hy : ys[i]? with
    | none => have := key 0 hc; rw [hx, hy] at this; simp at this
    | some y =>
      congr 1
      apply Vector.ext
      intro m hm
      have := key m hm
      rw [hx, hy] at this
      simpa using this

/-- The structs in the lanes of a simdized struct of width `w`. -/
def lanesOf (c : Nat) (zero : α) (w : Nat) (v : List (List α)) : List (Vector α c) :=
  (List.range w).map fun i => Vector.ofFn fun m : Fin c => (v.getD m []).getD i zero

theorem members_lanesOf {zero : α} {w : Nat} {v : List (List α)} (hs : Shape c w v) : members (lanesOf c zero w v) = v := by
  apply List.ext_getElem?
  intro m
  by_cases hm : m < c
  · have hm' : m < v.length := by rw [hs.1]; exact hm
    rw [members_getElem? _ hm, List.getElem?_eq_getElem hm']
    congr 1
    have hw := hs.2 _ (List.getElem_mem hm')
    apply List.ext_getElem
    · simp [lanesOf, hw]
    · intro i h1 h2
      simp [lanesOf, hm', h2]
  · rw [List.getElem?_eq_none (by simp; omega), List.getElem?_eq_none (by rw [hs.1]; omega)]

theorem lanesOf_members (hc : 0 < c) (zero : α) (xs : List (Vector α c)) : lanesOf c zero xs.length (members xs) = xs :=
  members_inj hc (members_lanesOf (members_shape xs))

@[simp] theorem lanesOf_length (zero : α) (w : Nat) (v : List (List α)) : (lanesOf c zero w v).length = w := by simp [lanesOf]

/-! ## The order of the lanes -/

/-- The lane order of a load: lane `i` of an unordered load is struct `3 * i` modulo the width. -/
def reorder {β : Type} (S : SEnv) (xs : List β) : List β :=
  if Unordered S then List.ofFn fun i : Fin xs.length => xs[3 * i.1 % xs.length]'(Nat.mod_lt _ (by have := i.2; omega)) else xs

@[simp] theorem reorder_length {β : Type} (S : SEnv) (xs : List β) : (reorder S xs).length = xs.length := by
  unfold reorder; split <;> simp

theorem reorder_getElem? {β : Type} (S : SEnv) (xs : List β) {i : Nat} (hi : i < xs.length) :
    (reorder S xs)[i]? = xs[if Unordered S then 3 * i % xs.length else i]? := by
  unfold reorder
  split
  · have h1 : 3 * i % xs.length < xs.length := Nat.mod_lt _ (by omega)
    simp [hi, h1]
  · rfl

theorem reorder_ordered {β : Type} {S : SEnv} (h : ¬ Unordered S) (xs : List β) : reorder S xs = xs := by
  unfold reorder; rw [if_neg h]

theorem reorder_perm {β : Type} {S : SEnv} {xs : List β} (hn : S.n = xs.length) : (reorder S xs).Perm xs := by
  by_cases hu : Unordered S
  · have h8 : xs.length = 8 := by rw [← hn]; exact hu.2.2.2.2.1
    have hpi : ([0, 3, 6, 1, 4, 7, 2, 5] : List Nat).Perm (List.range 8) := by decide
    have key : ∀ l : List Nat, (∀ i ∈ l, i < 8) → ∀ ys : List β, ys.length = l.length →
        (∀ j : Nat, j < l.length → ys[j]? = xs[l.getD j 0]?) → ys.map some = l.map fun i => xs[i]? := by
      intro l hl ys hy h
      apply List.ext_getElem?
      intro j
      by_cases hj : j < l.length
      · have := h j hj
        simp only [List.getElem?_map, List.getElem?_eq_getElem hj, Option.map_some]
        rw [getD_lt hj] at this
        rw [List.getElem?_eq_getElem (by omega)] at this ⊢
        rw [Option.map_some, this]
      · rw [List.getElem?_eq_none (by simp; omega), List.getElem?_eq_none (by simp; omega)]
    have h1 := key [0, 3, 6, 1, 4, 7, 2, 5] (by decide) (reorder S xs) (by simp [h8]) fun j hj => by
      rw [reorder_getElem? S xs (by rw [h8]; exact hj), if_pos hu, h8]
      have hj : j < 8 := hj
      rcases (by omega : j = 0 ∨ j = 1 ∨ j = 2 ∨ j = 3 ∨ j = 4 ∨ j = 5 ∨ j = 6 ∨ j = 7)
        with rfl | rfl | rfl | rfl | rfl | rfl | rfl | rfl <;> rfl
    have h2 := key (List.range 8) (by simp) xs (by simp [h8]) fun j hj => by
      have hj : j < 8 := by simpa using hj
      congr 1
      simp [hj]
    have := hpi.map fun i => xs[i]?
    rw [← h1, ← h2] at this
    have h3 := this.map (Option.getD · (xs[0]'(by omega)))
    simpa [Function.comp_def] using h3
  · rw [reorder_ordered hu]

/-! ## Loads and stores -/

/-- What the types guarantee for all widths. -/
structure Family.WF (F : Family) (c : Nat) : Prop where
  pos : 0 < c
  width : ∀ w, (F.env w).n = w
  count : ∀ w, (F.env w).count = c
  valid : ∀ w, 0 < w → Valid (F.env w) (F.perm w)

theorem inRange_iff {n : Nat} {pos : Int} {w : Nat} : inRange n pos w = true ↔ 0 ≤ pos ∧ pos.toNat + w ≤ n := by
  unfold inRange
  rw [decide_eq_true_eq]
  omega

variable {F : Family} {e : Env}

theorem simdize_load {zero : α} {junk : Nat → α} (hF : F.WF c) {xs : List (Vector α c)} {w p : Nat} (hw : 0 < w)
    (h : p + w ≤ xs.length) :
    Simdize.load (F.env w) (F.perm w) zero junk (flat xs) p = .ok (members (reorder (F.env w) ((xs.drop p).take w))) := by
  obtain ⟨r, e1, hm⟩ := load_members (F.env w) (F.perm w) zero junk (flat xs) p (hF.valid w hw)
    (by rw [hF.width, hF.count, flat_length]; exact Nat.mul_le_mul_right _ h)
  rw [hF.width, hF.count] at hm
  rw [e1]
  congr 1
  have hlen : ((xs.drop p).take w).length = w := by simp; omega
  apply List.ext_getElem?
  intro m
  by_cases hmc : m < c
  · obtain ⟨v, g1, g2, g3⟩ := hm.2 m hmc
    rw [g1, members_getElem? _ hmc]
    congr 1
    apply List.ext_getElem?
    intro i
    by_cases hi : i < w
    · rw [g3 i hi]
      show (flat xs)[(p + if Unordered (F.env w) then 3 * i % w else i) * c + m]? = _
      rw [flat_getElem? hmc, List.getElem?_map, reorder_getElem? _ _ (by omega), hlen]
      have hj : (if Unordered (F.env w) then 3 * i % w else i) < w := by
        split
        · exact Nat.mod_lt _ hw
        · exact hi
      rw [List.getElem?_take, if_pos hj, List.getElem?_drop]
    · rw [List.getElem?_eq_none (by omega), List.getElem?_eq_none (by simp; omega)]
  · rw [List.getElem?_eq_none (by rw [hm.1]; omega), List.getElem?_eq_none (by simp; omega)]

theorem simdize_store {junk : Nat → α} (hF : F.WF c) {xs ys : List (Vector α c)} {w p : Nat} (hw : ys.length = w)
    (h : p + w ≤ xs.length) :
    Simdize.store (F.env w) junk (members ys) (flat xs) p = .ok (flat (xs.take p ++ ys ++ xs.drop (p + w))) := by
  obtain ⟨mem', e1, h1, _, h2, h3⟩ := store_spec (F.env w) junk (members ys) (flat xs) p
    (by rw [hF.width, hF.count, ← hw]; exact members_shape ys)
    (by rw [hF.width, hF.count, flat_length]; exact Nat.mul_le_mul_right _ h)
  rw [hF.width, hF.count] at h2 h3
  rw [e1]
  congr 1
  have hp : (xs.take p).length = p := by simp; omega
  refine flat_eq hF.pos (by rw [h1, flat_length]; congr 1; simp; omega) fun i m hi hm => ?_
  by_cases c1 : i < p
  · have : (i + 1) * c ≤ p * c := Nat.mul_le_mul_right _ c1
    rw [Nat.add_mul, Nat.one_mul] at this
    rw [h3 _ (.inl (by omega)), flat_getElem? hm, List.append_assoc, List.getElem?_append_left (by omega),
      List.getElem?_take, if_pos c1]
  · by_cases c2 : i < p + w
    · obtain ⟨v, g1, g2⟩ := h2 (i - p) (by omega) m hm
      rw [show p + (i - p) = i by omega, members_getElem? _ hm] at *
      cases g1
      rw [g2, List.getElem?_map, List.append_assoc, List.getElem?_append_right (by omega), hp,
        List.getElem?_append_left (by omega)]
    · have : (p + w) * c ≤ i * c := Nat.mul_le_mul_right _ (by omega)
      rw [h3 _ (.inr (by omega)), flat_getElem? hm, List.getElem?_append_right (by simp; omega), List.getElem?_drop]
      congr 2
      simp; omega

/-- Every access of the simd-level model is aligned. -/
def AlwaysAligned (e : Env) : Prop := ∀ pos w, alignedAt e pos w = true

theorem sim_load {zero : α} {junk : Nat → α} (hF : F.WF c) (ha : AlwaysAligned e) (xs : List (Vector α c)) (aligned : Bool) {w : Nat}
    (hw : 0 < w) (pos : Int) :
    Sim (fun cs => members (reorder (F.env w) cs)) (ForEach.load e xs aligned w pos) (load F zero junk (flat xs) w pos) := by
  unfold ForEach.load load
  rw [ha, Bool.not_true, Bool.and_false]
  cases hr : inRange xs.length pos w with
  | true =>
    obtain ⟨h0, h1⟩ := inRange_iff.1 hr
    rw [if_neg (show ¬ pos < 0 by omega), simdize_load hF hw h1]
    rfl
  | false =>
    have hr' : ¬ (0 ≤ pos ∧ pos.toNat + w ≤ xs.length) := by rw [← inRange_iff, hr]; simp
    by_cases h0 : pos < 0
    · rw [if_pos h0]; trivial
    · rw [if_neg h0]
      obtain ⟨u, hu⟩ := load_oob (F.env w) (F.perm w) zero junk (flat xs) pos.toNat (hF.valid w hw)
        (by rw [hF.width, hF.count, flat_length]
            exact Nat.mul_lt_mul_of_pos_right (by omega) hF.pos)
      rw [hu]; trivial

theorem sim_store {junk : Nat → α} (hF : F.WF c) (ha : AlwaysAligned e) (xs ys : List (Vector α c)) (aligned : Bool) {w : Nat}
    (hw : 0 < w) (hy : ys.length = w) (pos : Int) :
    Sim flat (ForEach.store e xs aligned w pos ys) (store F junk (flat xs) w pos (members ys)) := by
  unfold ForEach.store store
  rw [ha, Bool.not_true, Bool.and_false]
  cases hr : inRange xs.length pos w with
  | true =>
    obtain ⟨h0, h1⟩ := inRange_iff.1 hr
    rw [if_neg (show ¬ pos < 0 by omega), simdize_store hF hy h1]
    rfl
  | false =>
    have hr' : ¬ (0 ≤ pos ∧ pos.toNat + w ≤ xs.length) := by rw [← inRange_iff, hr]; simp
    by_cases h0 : pos < 0
    · rw [if_pos h0]; trivial
    · rw [if_neg h0]
      obtain ⟨u, hu⟩ := store_oob (F.env w) junk (members ys) (flat xs) pos.toNat
        (by rw [hF.width, hF.count, ← hy]; exact members_shape ys) (by rw [hF.width]; exact hw)
        (by rw [hF.count]; exact hF.pos)
        (by rw [hF.width, hF.count, flat_length]
            exact Nat.mul_lt_mul_of_pos_right (by omega) hF.pos)
      rw [hu]; trivial

theorem Sim.bind' {A B C D : Type} {φ : A → B} {ψ : C → D} {x : Outcome A} {y : Outcome B} {g : A → Outcome C} {h : B → Outcome D}
    (hxy : Sim φ x y) (hgh : ∀ a, x = .ok a → Sim ψ (g a) (h (φ a))) : Sim ψ (x >>= g) (y >>= h) := by
  cases x <;> cases y <;> simp only [Sim] at hxy
  · subst hxy; exact hgh _ rfl
  · trivial
  · trivial

theorem sim_loadAll {zero : α} {junk : Nat → α} (hF : F.WF c) (ha : AlwaysAligned e) (xs : List (Vector α c)) (aligned : Bool)
    {w : Nat} (hw : 0 < w) (k : Nat) (pos : Int) :
    Sim (List.map fun cs => members (reorder (F.env w) cs)) (ForEach.loadAll e xs aligned w k pos)
      (loadAll F zero junk (flat xs) w k pos) := by
  induction k generalizing pos with
  | zero => rfl
  | succ k ih =>
    unfold ForEach.loadAll loadAll
    exact (sim_load hF ha xs aligned hw pos).bind fun a => (ih (pos + w)).bind fun b => rfl

theorem loadAll_ok_length {β : Type} {xs : List β} {aligned : Bool} {w k : Nat} {pos : Int} {cs : List (List β)}
    (h : ForEach.loadAll e xs aligned w k pos = .ok cs) : cs.length = k ∧ ∀ x ∈ cs, x.length = w := by
  induction k generalizing pos cs with
  | zero =>
    unfold ForEach.loadAll at h
    cases h
    simp
  | succ k ih =>
    unfold ForEach.loadAll at h
    unfold ForEach.load at h
    cases hr : inRange xs.length pos w with
    | false => rw [hr] at h; simp at h
    | true =>
      obtain ⟨h0, h1⟩ := inRange_iff.1 hr
      rw [hr] at h
      simp only [Bool.not_true, Bool.false_eq_true, if_false] at h
      split at h
      · simp at h
      · simp only [Outcome.bind_ok] at h
        cases hl : ForEach.loadAll e xs aligned w k (pos + w) with
        | ok r =>
          rw [hl] at h
          simp only [Outcome.bind_ok] at h
          cases h
          obtain ⟨g1, g2⟩ := ih hl
          refine ⟨by simp [g1], fun x hx => ?_⟩
          rcases List.mem_cons.1 hx with rfl | hx
          · simp; omega
          · exact g2 x hx
        | ub r => rw [hl] at h; simp at h
        | trap => rw [hl] at h; simp at h

theorem sim_storeAll {junk : Nat → α} (hF : F.WF c) (ha : AlwaysAligned e) (aligned : Bool) {w : Nat} (hw : 0 < w)
    (rs : List (List (Vector α c))) (hr : ∀ r ∈ rs, r.length = w) (pos : Int) (xs : List (Vector α c)) :
    Sim flat (ForEach.storeAll e aligned w rs pos xs) (storeAll F junk w (rs.map members) pos (flat xs)) := by
  induction rs generalizing pos xs with
  | nil => rfl
  | cons r rs ih =>
    unfold ForEach.storeAll storeAll
    exact (sim_store hF ha xs r aligned hw (hr r List.mem_cons_self) pos).bind fun a =>
      ih (fun x hx => hr x (List.mem_cons_of_mem _ hx)) _ _

/-! ## The callable, seen from the structs -/

/-- The callable, as a function of the structs in the lanes (in memory order). -/
def onStructs (F : Family) (zero : α) (f : SCallable σ α c) : Callable σ (Vector α c) where
  call s cs :=
    let r := f.call s (cs.map fun x => members (reorder (F.env x.length) x))
    (r.1, (List.range cs.length).map fun j => lanesOf c zero (cs.getD j []).length (r.2.getD j []))
  shape s cs := by
    apply List.ext_getElem
    · simp
    · intro j h1 h2
      have : j < cs.length := by simpa using h1
      simp [this]

theorem onStructs_results (zero : α) (f : SCallable σ α c) (s : σ) {w : Nat} {cs : List (List (Vector α c))}
    (hcs : ∀ x ∈ cs, x.length = w) :
    ((onStructs F zero f).call s cs).2.map members =
      (f.call s (cs.map fun x => members (reorder (F.env w) x))).2 := by
  have hmap : (cs.map fun x => members (reorder (F.env x.length) x)) = cs.map fun x => members (reorder (F.env w) x) :=
    List.map_congr_left fun x hx => by rw [hcs x hx]
  have hsh := f.shape s (cs.map fun x => members (reorder (F.env w) x)) w (by
    intro v hv
    obtain ⟨x, hx, rfl⟩ := List.mem_map.1 hv
    have := members_shape (reorder (F.env w) x)
    rw [reorder_length, hcs x hx] at this
    exact this)
  rw [List.length_map] at hsh
  unfold onStructs
  dsimp only
  rw [hmap]
  apply List.ext_getElem
  · simp [hsh.1]
  · intro j h1 h2
    have hj : j < cs.length := by simpa using h1
    have hw : cs[j].length = w := hcs _ (List.getElem_mem hj)
    simp only [List.getElem_map, List.getElem_range]
    rw [getD_lt hj, getD_lt h2, hw]
    exact members_lanesOf (hsh.2 _ (List.getElem_mem h2))

theorem onStructs_lengths (zero : α) (f : SCallable σ α c) (s : σ) {w : Nat} {cs : List (List (Vector α c))}
    (hcs : ∀ x ∈ cs, x.length = w) : ∀ r ∈ ((onStructs F zero f).call s cs).2, r.length = w := by
  intro r hr
  have h1 := (onStructs F zero f).shape s cs
  have h2 : r.length ∈ ((onStructs F zero f).call s cs).2.map List.length := List.mem_map.2 ⟨r, hr, rfl⟩
  rw [h1] at h2
  obtain ⟨x, hx, he⟩ := List.mem_map.1 h2
  rw [← he, hcs x hx]

/-- Flattening the array of structs. -/
def flatSt (st : σ × List (Vector α c)) : σ × List α := (st.1, flat st.2)

theorem invSim_struct {zero : α} {junk : Nat → α} (hF : F.WF c) (ha : AlwaysAligned e) (W : Nat) (wb : Bool) (f : SCallable σ α c) :
    InvSim W flatSt (ForEach.loadAndInvoke e wb (onStructs F zero f)) (invoke F zero junk wb f) := by
  intro w aligned k pos st hw _
  obtain ⟨s, xs⟩ := st
  unfold ForEach.loadAndInvoke invoke flatSt
  dsimp only
  refine Sim.bind' (sim_loadAll hF ha xs aligned hw k pos) fun cs hcs => ?_
  obtain ⟨_, hlen⟩ := loadAll_ok_length hcs
  have hst : ((onStructs F zero f).call s cs).1 = (f.call s (cs.map fun x => members (reorder (F.env w) x))).1 := by
    unfold onStructs
    dsimp only
    congr 2
    exact List.map_congr_left fun x hx => by rw [hlen x hx]
  cases wb with
  | false =>
    simp only [Bool.false_eq_true, if_false, hst]
    rfl
  | true =>
    simp only [if_true, hst]
    rw [← onStructs_results zero f s hlen]
    exact (sim_storeAll hF ha aligned hw _ (onStructs_lengths zero f s hlen) pos xs).bind fun a => rfl

/-- `for_each` on the flat array does what `for_each` does on the list of structs. -/
theorem sim_struct {zero : α} {junk : Nat → α} (hF : F.WF c) (ha : AlwaysAligned e) (hs : 0 < e.size) (wb : Bool)
    (f : SCallable σ α c) (s : σ) (xs : List (Vector α c)) :
    Sim flatSt (ForEach.forEach e wb (onStructs F zero f) s xs) (forEach e F zero junk wb f s (flat xs)) := by
  rw [forEach_eq_forEachG]
  unfold forEach
  rw [flat_length, Nat.mul_div_cancel _ hF.pos]
  exact sim_forEach (φ := flatSt) (invSim_struct hF ha e.size wb f) hs xs.length (s, xs)

/-! ## Simulation of callables with different states -/

theorem invSim_state {σ' : Type} (ψ : σ → σ') (f : Callable σ α) (f' : Callable σ' α)
    (h : ∀ s cs, f'.call (ψ s) cs = (ψ (f.call s cs).1, (f.call s cs).2)) (W : Nat) (wb : Bool) :
    InvSim W (fun st : σ × List α => (ψ st.1, st.2)) (ForEach.loadAndInvoke e wb f) (ForEach.loadAndInvoke e wb f') := by
  intro w aligned k pos st _ _
  obtain ⟨s, xs⟩ := st
  unfold ForEach.loadAndInvoke
  dsimp only
  have hr : ∀ {A : Type} (x : Outcome A), Sim id x x := fun x => by cases x <;> trivial
  refine (hr _).bind fun cs => ?_
  rw [h]
  dsimp only [id]
  cases wb with
  | false => rfl
  | true => exact (hr _).bind fun a => rfl

theorem forEach_state {σ' : Type} (ψ : σ → σ') (f : Callable σ α) (f' : Callable σ' α)
    (h : ∀ s cs, f'.call (ψ s) cs = (ψ (f.call s cs).1, (f.call s cs).2)) (hs : 0 < e.size) (wb : Bool) (s s' : σ)
    (xs ys : List α) (hr : ForEach.forEach e wb f s xs = .ok (s', ys)) :
    ForEach.forEach e wb f' (ψ s) xs = .ok (ψ s', ys) := by
  rw [forEach_eq_forEachG] at hr ⊢
  exact (sim_forEach (φ := fun st : σ × List α => (ψ st.1, st.2)) (invSim_state ψ f f' h e.size wb) hs xs.length (s, xs)).of_ok hr

end Vir.ForEachStruct
