import Verif.Lemmas.SimdWhere

/-!
# C40: where expressions change exactly the selected lanes
-/

namespace Vir.Spec

/-- `r` is `v` with every selected lane `i` replaced by `g i` of its value. -/
def UpdatedWhere {α : Type} (k : List Bool) (g : Nat → α → α) (v r : List α) : Prop :=
  r.length = v.length ∧
    ∀ (i : Nat) (b : Bool) (x : α), k[i]? = some b → v[i]? = some x → r[i]? = some (if b then g i x else x)

end Vir.Spec

namespace Vir.Simd
open Spec

variable {α β : Type}

private theorem updated_of {f : Nat → α → Outcome α} {g : Nat → α → α} {k : List Bool} {v : List α}
    (hk : k.length = v.length)
    (h : ∀ (i : Nat) (x : α), k[i]? = some true → v[i]? = some x → f i x = .ok (g i x)) :
    ∃ r, maskedUpdate f k v = .ok r ∧ UpdatedWhere k g v r := by
  let r : List α := (List.range v.length).attach.map fun ⟨i, hi⟩ =>
    have hi : i < v.length := by simpa using hi
    if k[i]'(by omega) then g i v[i] else v[i]
  have hrl : r.length = v.length := by simp [r]
  have hr : ∀ (i : Nat) (hi : i < v.length), r[i]'(by omega) = if k[i]'(by omega) then g i v[i] else v[i] := by
    intro i hi; simp [r]
  refine ⟨r, maskedUpdate_eq hk hrl fun i hi => ?_, hrl, fun i b x hb hx => ?_⟩
  · rw [hr i hi]
    split
    · rename_i hb
      exact h i v[i] (by rw [List.getElem?_eq_getElem (by omega), hb]) (List.getElem?_eq_getElem hi)
    · rfl
  · obtain ⟨hi, hvx⟩ := List.getElem?_eq_some_iff.1 hx
    obtain ⟨hik, hkb⟩ := List.getElem?_eq_some_iff.1 hb
    rw [List.getElem?_eq_getElem (by omega), hr i hi, hkb, hvx]

/-- **C40.** `where(k, v) = x`. -/
theorem whereAssign_spec (k : List Bool) (v rhs : List α) (hk : k.length = v.length) (hr : rhs.length = v.length) :
    ∃ r, whereAssign k v rhs = .ok r ∧ UpdatedWhere k (fun i x => rhs.getD i x) v r :=
  updated_of hk fun i x _ hx => by
    have hi := (List.getElem?_eq_some_iff.1 hx).1
    simp [at', List.getElem?_eq_getElem (show i < rhs.length by omega)]

/-- **C40.** `where(k, v) op= x`. The operation is only evaluated on selected lanes, so it need not be defined on the
others (a masked division by zero is harmless). -/
theorem whereOpAssign_spec (op : α → α → Outcome α) (op' : α → α → α) (k : List Bool) (v rhs : List α)
    (hk : k.length = v.length) (hr : rhs.length = v.length)
    (hop : ∀ (i : Nat) (x y : α), k[i]? = some true → v[i]? = some x → rhs[i]? = some y → op x y = .ok (op' x y)) :
    ∃ r, whereOpAssign op k v rhs = .ok r ∧ UpdatedWhere k (fun i x => op' x (rhs.getD i x)) v r :=
  updated_of hk fun i x hki hx => by
    have hi := (List.getElem?_eq_some_iff.1 hx).1
    have hri : rhs[i]? = some (rhs[i]'(by omega)) := List.getElem?_eq_getElem (by omega)
    simp [at', hri, hop i x _ hki hx hri]

/-- **C40.** If the operation is undefined on a selected lane then `where(k, v) op= x` is undefined. -/
theorem whereOpAssign_ub (op : α → α → Outcome α) (u : UB) (k : List Bool) (v rhs : List α)
    (hk : k.length = v.length) (hr : rhs.length = v.length)
    (hop : ∀ x y, (∃ z, op x y = .ok z) ∨ op x y = .ub u) {i : Nat} {x y : α} (hki : k[i]? = some true)
    (hx : v[i]? = some x) (hy : rhs[i]? = some y) (hu : op x y = .ub u) : whereOpAssign op k v rhs = .ub u := by
  refine maskedUpdate_ub hk (fun i x hx _ => ?_) hx hki ?_
  · have hi := (List.getElem?_eq_some_iff.1 hx).1
    have hri : rhs[i]? = some (rhs[i]'(by omega)) := List.getElem?_eq_getElem (by omega)
    simp only [at', hri, Outcome.bind_ok]
    exact hop x _
  · simp [at', hy, hu]

/-- **C40.** `++where(k, v)`, `--where(k, v)` and the postfix forms. -/
theorem whereIncDec_spec (f : α → Outcome α) (g : α → α) (k : List Bool) (v : List α) (hk : k.length = v.length)
    (hf : ∀ (i : Nat) (x : α), k[i]? = some true → v[i]? = some x → f x = .ok (g x)) :
    ∃ r, whereIncDec f k v = .ok r ∧ UpdatedWhere k (fun _ x => g x) v r :=
  updated_of hk fun i x hki hx => hf i x hki hx

/-- **C40.** Masked `copy_from`: only memory cells of selected lanes need to exist. -/
theorem whereCopyFrom_spec (cvt : β → α) (k : List Bool) (v : List α) (mem : List β) (off : Nat)
    (hk : k.length = v.length) (hm : ∀ i : Nat, k[i]? = some true → off + i < mem.length) :
    ∃ r, whereCopyFrom cvt k v mem off = .ok r ∧
      UpdatedWhere k (fun i x => match mem[off + i]? with | some y => cvt y | none => x) v r :=
  updated_of hk fun i x hki _ => by
    have := List.getElem?_eq_getElem (hm i hki)
    simp [rd, this]

/-- **C40.** Masked `copy_from` is undefined if the memory cell of a selected lane does not exist. -/
theorem whereCopyFrom_oob (cvt : β → α) (k : List Bool) (v : List α) (mem : List β) (off : Nat)
    (hk : k.length = v.length) {i : Nat} (hki : k[i]? = some true) (hm : mem.length ≤ off + i) :
    whereCopyFrom cvt k v mem off = .ub .oob := by
  have hi := (List.getElem?_eq_some_iff.1 hki).1
  refine maskedUpdate_ub hk (fun i x _ _ => ?_) (List.getElem?_eq_getElem (show i < v.length by omega)) hki ?_
  · unfold rd
    cases mem[off + i]? with
    | some y => exact .inl ⟨_, rfl⟩
    | none => exact .inr rfl
  · simp [rd, hm]

private theorem gen_updated {f : Nat → Outcome α} {g : Nat → α → α} {k : List Bool} {v : List α}
    (hk : k.length = v.length)
    (h : ∀ (i : Nat) (b : Bool) (x : α), k[i]? = some b → v[i]? = some x → f i = .ok (if b then g i x else x)) :
    ∃ r, gen v.length f = .ok r ∧ UpdatedWhere k g v r := by
  let r : List α := (List.range v.length).attach.map fun ⟨i, hi⟩ =>
    have hi : i < v.length := by simpa using hi
    if k[i]'(by omega) then g i v[i] else v[i]
  have hrl : r.length = v.length := by simp [r]
  have hr : ∀ (i : Nat) (hi : i < v.length), r[i]'(by omega) = if k[i]'(by omega) then g i v[i] else v[i] := by
    intro i hi; simp [r]
  refine ⟨r, gen_list hrl fun j x hj => ?_, hrl, fun i b x hb hx => ?_⟩
  · obtain ⟨hl, hx⟩ := List.getElem?_eq_some_iff.1 hj
    rw [h j _ _ (List.getElem?_eq_getElem (by omega)) (List.getElem?_eq_getElem (by omega)), ← hx, hr j (by omega)]
  · obtain ⟨hi, hvx⟩ := List.getElem?_eq_some_iff.1 hx
    obtain ⟨hik, hkb⟩ := List.getElem?_eq_some_iff.1 hb
    rw [List.getElem?_eq_getElem (by omega), hr i hi, hkb, hvx]

/-- **C40.** `-where(k, v)` negates the selected lanes and copies the others. -/
theorem whereNeg_spec (neg : α → α) (k : List Bool) (v : List α) (hk : k.length = v.length) :
    ∃ r, whereNeg neg k v = .ok r ∧ UpdatedWhere k (fun _ x => neg x) v r :=
  gen_updated hk fun i b x hb hx => by cases b <;> simp [at', hb, hx]

/-- **C40.** `copy_from` of a const where expression. -/
theorem constWhereCopyFrom_spec (cvt : β → α) (k : List Bool) (v : List α) (mem : List β) (off : Nat)
    (hk : k.length = v.length) (hm : ∀ i : Nat, k[i]? = some true → off + i < mem.length) :
    ∃ r, constWhereCopyFrom cvt k v mem off = .ok r ∧
      UpdatedWhere k (fun i x => match mem[off + i]? with | some y => cvt y | none => x) v r :=
  gen_updated hk fun i b x hb hx => by
    cases b with
    | false => simp [at', hb, hx]
    | true =>
      have := List.getElem?_eq_getElem (hm i hb)
      simp [at', rd, hb, this]

/-- **C40.** Masked `copy_to`: the memory cells of the selected lanes hold the lanes, all other cells are unchanged, and
only cells of selected lanes need to exist. -/
theorem whereCopyTo_spec (cvt : α → β) (k : List Bool) (v : List α) (mem : List β) (off : Nat)
    (hk : k.length = v.length) (hm : ∀ i : Nat, k[i]? = some true → off + i < mem.length) :
    ∃ r, whereCopyTo cvt k v mem off = .ok r ∧ r.length = mem.length ∧
      (∀ (i : Nat) (x : α), k[i]? = some true → v[i]? = some x → r[off + i]? = some (cvt x)) ∧
      (∀ p : Nat, (¬ ∃ i, p = off + i ∧ k[i]? = some true) → r[p]? = mem[p]?) := by
  let r : List β := (List.range mem.length).attach.map fun ⟨p, hp⟩ =>
    have hp : p < mem.length := by simpa using hp
    if h : off ≤ p ∧ p - off < v.length then
      if k[p - off]'(by omega) then cvt (v[p - off]'h.2) else mem[p]
    else mem[p]
  have hrl : r.length = mem.length := by simp [r]
  have hr : ∀ (p : Nat) (hp : p < mem.length), r[p]'(by omega) =
      if h : off ≤ p ∧ p - off < v.length then
        if k[p - off]'(by omega) then cvt (v[p - off]'h.2) else mem[p]
      else mem[p] := by
    intro p hp; simp [r]
  have h1 : ∀ i, ∀ hi : i < v.length, k[i]'(by omega) = true → r[off + i]? = some (cvt v[i]) := by
    intro i hi hki
    have := hm i (by rw [List.getElem?_eq_getElem (by omega), hki])
    rw [List.getElem?_eq_getElem (by omega), hr _ this, dif_pos (by omega)]
    simp only [Nat.add_sub_cancel_left, hki, if_true]
  have h2 : ∀ p, p < mem.length → (∀ i, off + i = p → k[i]? = some true → False) → r[p]? = mem[p]? := by
    intro p hp hno
    rw [List.getElem?_eq_getElem (by omega), List.getElem?_eq_getElem hp, hr p hp]
    split
    · rename_i h
      rw [if_neg]
      intro hkt
      exact hno (p - off) (by omega) (by rw [List.getElem?_eq_getElem (by omega), hkt])
    · rfl
  refine ⟨r, whereCopyTo_eq hk hrl h1 h2, hrl, fun i x hki hx => ?_, fun p hno => ?_⟩
  · obtain ⟨hi, hvx⟩ := List.getElem?_eq_some_iff.1 hx
    obtain ⟨hik, hkb⟩ := List.getElem?_eq_some_iff.1 hki
    rw [h1 i hi hkb, hvx]
  · by_cases hp : p < mem.length
    · exact h2 p hp fun i hi hki => hno ⟨i, hi.symm, hki⟩
    · rw [List.getElem?_eq_none (by omega), List.getElem?_eq_none (by omega)]

/-- **C40.** `where(k, k) = x` is unaffected by mask and value being the same object. -/
theorem whereAssignSelf_eq (k rhs : List Bool) (hr : rhs.length = k.length) :
    whereAssignSelf k rhs = whereAssign k k rhs := by
  obtain ⟨r, h1, hl, h2⟩ := whereAssign_spec k k rhs rfl hr
  rw [h1]
  unfold whereAssignSelf
  obtain ⟨st, h3, h4⟩ := forUp_inv (fun i k => do if ← at' k i then wr k i (← at' rhs i) else .ok k) k.length 0 k
    (fun i st => st.length = k.length ∧ (∀ j : Nat, j < i → st[j]? = r[j]?) ∧ ∀ j : Nat, i ≤ j → st[j]? = k[j]?)
    ⟨rfl, fun j hj => by omega, fun _ _ => rfl⟩ (fun j st hj1 hj2 ⟨hs1, hs2, hs3⟩ => by
      have hj : j < k.length := by omega
      have hkj : st[j]? = some k[j] := by rw [hs3 j (Nat.le_refl _), List.getElem?_eq_getElem hj]
      have hrj := h2 j k[j] k[j] (List.getElem?_eq_getElem hj) (List.getElem?_eq_getElem hj)
      have hrhs : rhs[j]? = some (rhs[j]'(by omega)) := List.getElem?_eq_getElem (by omega)
      have hgd : rhs.getD j k[j] = rhs[j]'(by omega) := by simp [List.getD, hrhs]
      simp only [at', hkj, hrhs, Outcome.bind_ok]
      by_cases hb : k[j] = true
      · rw [if_pos hb, wr, if_pos (by omega)]
        rw [hb, if_pos rfl, ← hb] at hrj
        simp only [hgd] at hrj
        refine ⟨_, rfl, by simpa using hs1, fun m hm => ?_, fun m hm => ?_⟩
        · by_cases hmj : m = j
          · subst hmj; rw [hrj, List.getElem?_set_self (by omega)]
          · rw [List.getElem?_set_ne (by omega)]; exact hs2 m (by omega)
        · rw [List.getElem?_set_ne (by omega)]; exact hs3 m (by omega)
      · rw [if_neg hb]
        rw [if_neg hb] at hrj
        refine ⟨_, rfl, hs1, fun m hm => ?_, fun m hm => hs3 m (by omega)⟩
        by_cases hmj : m = j
        · subst hmj; rw [hrj, hkj]
        · exact hs2 m (by omega))
  rw [h3]
  congr 1
  apply List.ext_getElem?
  intro i
  by_cases hi : i < k.length
  · exact h4.2.1 i (by omega)
  · rw [List.getElem?_eq_none (by omega), List.getElem?_eq_none (by omega)]

/-- **C40.** `where(bool, x)` leaves the value alone if the condition is false and applies the operation otherwise. -/
theorem whereBool_spec (f : α → Outcome α) (v : α) : whereBool f false v = .ok v ∧ whereBool f true v = f v :=
  ⟨rfl, rfl⟩

/-! ### the theorems are about something -/

example : whereAssign [true, false, true] [1, 2, 3] [7, 8, 9] = .ok [7, 2, 9] := by decide
example : whereOpAssign (fun x y : Int => if y = 0 then .ub .div0 else .ok (x / y)) [true, false] [8, 9] [2, 0] = .ok [4, 9] := by
  decide
example : whereOpAssign (fun x y : Int => if y = 0 then .ub .div0 else .ok (x / y)) [true, true] [8, 9] [2, 0] = .ub .div0 := by
  decide
example : whereCopyFrom id [true, true, false] [1, 2, 3] [10, 20, 30, 40] 2 = .ok [30, 40, 3] ∧
    (∀ i : Nat, [true, true, false][i]? = some true → 2 + i < [10, 20, 30, 40].length) := by
  refine ⟨by decide, fun i hi => ?_⟩
  match i, hi with
  | 0, _ => decide
  | 1, _ => decide
  | 2, h => simp at h
example : whereCopyFrom id [true, true, true] [1, 2, 3] [10, 20, 30, 40] 2 = .ub .oob := by decide
example : whereCopyTo id [true, false, true] [1, 2, 3] [10, 20, 30, 40] 1 = .ok [10, 1, 30, 3] := by decide
example : whereAssignSelf [true, false, true] [false, true, true] = .ok [false, false, true] := by decide

/-! ## The theorems applied to concrete data -/

private def divOp (x y : Int) : Outcome Int := if y = 0 then .ub .div0 else .ok (x / y)

private theorem inMem (i : Nat) (hi : [true, false, true][i]? = some true) : 1 + i < 4 := by
  match i, hi with
  | 0, _ => decide
  | 1, h => simp at h
  | 2, _ => decide

example := whereAssign_spec [true, false, true] ([1, 2, 3] : List Nat) [7, 8, 9] rfl rfl
example := whereOpAssign_spec divOp (· / ·) [true, false] [8, 9] [2, 0] rfl rfl fun i x y hk hx hy => by
  match i, hk with
  | 0, _ => simp at hx hy; subst hx hy; rfl
  | 1, h => simp at h
example := whereOpAssign_ub divOp .div0 [true, true] [8, 9] [2, 0] rfl rfl (fun x y => by unfold divOp; split <;> simp) (i := 1) rfl rfl rfl rfl
example := whereIncDec_spec (fun x : Nat => if x = 255 then .ub .overflow else .ok (x + 1)) (· + 1) [true, false] [8, 255] rfl fun i x hk hx => by
  match i, hk with
  | 0, _ => simp at hx; subst hx; rfl
  | 1, h => simp at h
example := whereCopyFrom_spec (id : Nat → Nat) [true, false, true] [1, 2, 3] [10, 20, 30, 40] 1 rfl inMem
example := whereCopyFrom_oob (id : Nat → Nat) [true, false, true] [1, 2, 3] [10, 20, 30, 40] 2 rfl (i := 2) rfl (by decide)
example := whereNeg_spec (fun x : Int => -x) [true, false, true] [1, 2, 3] rfl
example := constWhereCopyFrom_spec (id : Nat → Nat) [true, false, true] [1, 2, 3] [10, 20, 30, 40] 1 rfl inMem
example := whereCopyTo_spec (id : Nat → Nat) [true, false, true] [1, 2, 3] [10, 20, 30, 40] 1 rfl inMem
example := whereAssignSelf_eq [true, false, true] [false, true, true] rfl

end Vir.Simd
