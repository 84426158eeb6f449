import Verif.Model.StructReflect

/-!
# C65: `struct_get`, `to_tuple`, `to_tuple_ref`, `to_pair`, `to_pair_ref`
-/

namespace Vir.StructReflect

variable {α : Type}

private theorem namesFor_le : ∀ n < 51, namesFor n = some (List.range n) := by decide

private theorem lookup_none {n : Nat} : ∀ l : List (Nat × List Nat), (∀ x ∈ l, x.1 ≠ n) → l.lookup n = none
  | [], _ => rfl
  | (a, b) :: l, h => by
    have h1 : (n == a) = false := by
      have := h (a, b) (by simp)
      simp only [beq_eq_false_iff_ne]
      exact fun e => this e.symm
    rw [List.lookup_cons, h1]
    exact lookup_none l fun x hx => h x (by simp [hx])

private theorem rows_bound : ∀ x ∈ structGetRows, x.1 ≤ 50 := by decide

private theorem namesFor_gt {n : Nat} (h : 50 < n) : namesFor n = none := by
  match n, h with
  | n + 3, h =>
    refine lookup_none _ fun x hx => ?_
    have := rows_bound x hx
    omega

private theorem forPack_congr {A B : Type} {f g : A → Outcome B} :
    ∀ (l : List A), (∀ x ∈ l, f x = g x) → forPack f l = forPack g l
  | [], _ => rfl
  | a :: l, h => by
    rw [forPack, forPack, h a (by simp), forPack_congr l fun x hx => h x (by simp [hx])]

private theorem forward_zip : ∀ (names : List Nat) (rs : List Ref), names.Nodup → names.length = rs.length →
    forwardAsTuple (names.zip rs) names = .ok rs
  | [], [], _, _ => rfl
  | [], _ :: _, _, h => by simp at h
  | _ :: _, [], _, h => by simp at h
  | a :: names, r :: rs, hn, hl => by
    have ih := forward_zip names rs (List.nodup_cons.1 hn).2 (by simpa using hl)
    unfold forwardAsTuple at ih ⊢
    rw [List.zip_cons_cons, forPack]
    have h1 : useName ((a, r) :: names.zip rs) a = .ok r := by simp [useName]
    have h2 : forPack (useName ((a, r) :: names.zip rs)) names = forPack (useName (names.zip rs)) names := by
      refine forPack_congr _ fun x hx => ?_
      have : (x == a) = false := by
        simp only [beq_eq_false_iff_ne]
        rintro rfl
        exact (List.nodup_cons.1 hn).1 hx
      simp [useName, List.lookup_cons, this]
    rw [h1, h2, ih]
    rfl

private theorem destructure_eq (o : Obj) (c : Bool) (h : o.members.length ≤ 50) :
    destructure o c = .ok (o.members.map (access c)) := by
  unfold destructure
  rw [namesFor_le _ (by omega)]
  simp only [bindNames]
  rw [if_neg (by simp [List.nodup_range]), Outcome.bind_ok]
  exact forward_zip _ _ List.nodup_range (by simp)

private theorem destructure_gt (o : Obj) (c : Bool) (h : 50 < o.members.length) : destructure o c = .ub .staticAssert := by
  unfold destructure
  rw [namesFor_gt h]

/-- **C65.** `to_tuple_ref(obj)` are references to all members, in the order of their declaration; they are const exactly if the
member is or the object is and the member is not a reference. -/
theorem toTupleRef_spec (o : Obj) (h : o.members.length ≤ 50) :
    ∃ rs, toTupleRef o = .ok rs ∧ rs.length = o.members.length ∧
      ∀ i (hi : i < o.members.length), ∃ r, rs[i]? = some r ∧ r.cell = o.members[i].cell ∧
        (r.isConst = true ↔ o.members[i].isConst = true ∨ o.isConst = true ∧ o.members[i].isRef = false) := by
  refine ⟨_, destructure_eq o _ h, by simp, ?_⟩
  intro i hi
  refine ⟨access o.isConst o.members[i], by simp [hi], rfl, ?_⟩
  simp [access]

/-- **C65.** `struct_get<n>(obj)` refers to member `n`. It is const as in `to_tuple_ref`, and also for const and rvalue objects with a
single member. -/
theorem structGet_spec (o : Obj) (h : o.members.length ≤ 50) (n : Nat) (hn : n < o.members.length) :
    ∃ r, structGet n o = .ok r ∧ r.cell = o.members[n].cell ∧
      (r.isConst = true ↔ o.members[n].isConst = true ∨ o.isConst = true ∧ o.members[n].isRef = false ∨
        o.members.length = 1 ∧ (o.isConst = true ∨ o.isRvalue = true)) := by
  unfold structGet
  rw [if_pos hn, destructure_eq o _ h]
  simp only [Outcome.bind_ok, List.getElem?_map, List.getElem?_eq_getElem hn, Option.map_some]
  split
  · rename_i hc
    exact ⟨_, rfl, rfl, by simp [hc]⟩
  · rename_i hc
    refine ⟨_, rfl, rfl, ?_⟩
    constructor
    · intro h'
      simp only [access, Bool.or_eq_true, Bool.and_eq_true, Bool.not_eq_true'] at h'
      rcases h' with h' | h'
      · exact Or.inl h'
      · exact Or.inr (Or.inl h')
    · rintro (h' | h' | h')
      · simp [access, h']
      · simp [access, h']
      · exact absurd h' hc

/-- The members of the object are the cells from `base` on, one after the other; none is const or a reference. -/
def PlainAt (o : Obj) (base : Nat) : Prop :=
  o.members = (List.range o.members.length).map fun i => { cell := base + i : Member }

/-- **C65.** For a plain non-const object in memory, assigning through `struct_get<n>(obj)` changes member `n` and nothing else, and
reading it yields member `n`. The object must not be an rvalue with a single member. -/
theorem structGet_assign (o : Obj) (base : Nat) (mem : List α) (hp : PlainAt o base) (hb : base + o.members.length ≤ mem.length)
    (h : o.members.length ≤ 50) (hc : o.isConst = false) (hr : o.members.length = 1 → o.isRvalue = false)
    (n : Nat) (hn : n < o.members.length) (v : α) :
    (structGet n o >>= fun r => writeRef mem r v) = .ok (mem.set (base + n) v) ∧
      (structGet n o >>= fun r => readRef mem r) = .ok (mem[base + n]'(by omega)) := by
  obtain ⟨r, h1, h2, h3⟩ := structGet_spec o h n hn
  have hm : o.members[n] = { cell := base + n : Member } := by
    have : o.members[n]? = some { cell := base + n : Member } := by rw [hp]; simp [hn]
    rw [List.getElem?_eq_getElem hn] at this
    exact Option.some.inj this
  have hnc : r.isConst = false := by
    rw [← Bool.not_eq_true]
    intro hcon
    rcases h3.1 hcon with h' | h' | ⟨h4, h5⟩
    · rw [hm] at h'; simp at h'
    · rw [hc] at h'; simp at h'
    · rcases h5 with h5 | h5
      · rw [hc] at h5; simp at h5
      · rw [hr h4] at h5; simp at h5
  rw [hm] at h2
  simp only at h2
  rw [h1, Outcome.bind_ok, Outcome.bind_ok]
  refine ⟨by rw [writeRef, hnc, h2, if_neg (by simp), if_pos (by omega)], ?_⟩
  rw [readRef, h2, List.getElem?_eq_getElem (by omega)]

private theorem forPack_read (mem : List α) (c : Bool) : ∀ (l : List Member), (∀ m ∈ l, m.cell < mem.length) →
    ∃ vs, forPack (readRef mem) (l.map (access c)) = .ok vs ∧ vs.length = l.length ∧
      ∀ i (hi : i < l.length), vs[i]? = mem[l[i].cell]?
  | [], _ => ⟨[], rfl, rfl, by simp⟩
  | m :: l, h => by
    obtain ⟨vs, h1, h2, h3⟩ := forPack_read mem c l fun x hx => h x (by simp [hx])
    have hm := h m (by simp)
    refine ⟨mem[m.cell] :: vs, ?_, by simp [h2], ?_⟩
    · rw [List.map_cons, forPack, h1]
      have : readRef mem (access c m) = .ok mem[m.cell] := by simp [readRef, access, hm]
      rw [this]; rfl
    · intro i hi
      cases i with
      | zero => simp [hm]
      | succ i => simpa using h3 i (by simpa using hi)

/-- **C65.** `to_tuple(obj)` holds copies of all members, in the order of their declaration, with their types (references removed). -/
theorem toTuple_spec (o : Obj) (mem : List α) (h : o.members.length ≤ 50) (hm : ∀ m ∈ o.members, m.cell < mem.length)
    (hcp : ∀ m ∈ o.members, m.copyable = true) :
    ∃ vs, toTuple o mem = .ok vs ∧ vs.length = o.members.length ∧
      ∀ i (hi : i < o.members.length), ∃ v, vs[i]? = some (v, o.members[i].isConst) ∧ mem[o.members[i].cell]? = some v := by
  obtain ⟨vs, h1, h2, h3⟩ := forPack_read mem true o.members hm
  have heq : toTuple o mem = .ok (vs.zip ((o.members.map (access false)).map (·.isConst))) := by
    unfold toTuple
    rw [destructure_eq o _ h, destructure_eq o _ h]
    simp only [Outcome.bind_ok]
    rw [if_pos (by simpa using hcp), h1, Outcome.bind_ok]
  refine ⟨_, heq, by simp [h2], ?_⟩
  intro i hi
  have hc := hm _ (List.getElem_mem hi)
  refine ⟨mem[o.members[i].cell], ?_, by simp [hc]⟩
  have := h3 i hi
  rw [List.getElem?_eq_getElem hc, List.getElem?_eq_some_iff] at this
  obtain ⟨hlt, hv⟩ := this
  simp [List.getElem?_zip_eq_some, hv, hlt, hi, access]

/-- **C65.** If a member cannot be copied, `to_tuple` cannot be instantiated; `to_tuple_ref` can (`toTupleRef_spec`). -/
theorem toTuple_move_only (o : Obj) (mem : List α) (h : o.members.length ≤ 50) (hm : ∃ m ∈ o.members, m.copyable = false) :
    toTuple o mem = .ub .staticAssert := by
  unfold toTuple
  rw [destructure_eq o _ h, destructure_eq o _ h]
  simp only [Outcome.bind_ok]
  rw [if_neg]
  obtain ⟨m, h1, h2⟩ := hm
  intro h3
  have := List.all_eq_true.1 h3 m h1
  rw [h2] at this
  cases this

example : toTuple { members := [{ cell := 1 }, { cell := 0, copyable := false }] } [10, 11] = .ub .staticAssert :=
  toTuple_move_only _ _ (by decide) ⟨{ cell := 0, copyable := false }, by simp, rfl⟩

/-- **C65.** `to_pair` and `to_pair_ref` are the two elements of `to_tuple` and `to_tuple_ref`. -/
theorem toPair_spec (o : Obj) (mem : List α) (a b : Member) (h : o.members = [a, b]) :
    toPairRef o = .ok (access o.isConst a, access o.isConst b) ∧
      (∀ x y, toPair o mem = .ok (x, y) ↔ toTuple o mem = .ok [x, y]) := by
  have hl : o.members.length = 2 := by simp [h]
  constructor
  · unfold toPairRef toTupleRef
    rw [if_neg (by omega), destructure_eq o _ (by omega), h]
    rfl
  · intro x y
    unfold toPair
    rw [if_neg (by omega)]
    cases ht : toTuple o mem with
    | ub r => simp
    | trap => simp
    | ok vs =>
      match vs with
      | [] => simp
      | [_] => simp
      | [c, d] => simp
      | _ :: _ :: _ :: _ => simp

/-- **C65 (the limit).** Objects with more than 50 members can be named by the concept `reflectable_struct` but none of the functions
can be instantiated for them. -/
theorem structGet_limit (o : Obj) (mem : List α) (n : Nat) (h : 50 < o.members.length) :
    structGet n o = .ub .staticAssert ∧ toTupleRef o = .ub .staticAssert ∧ toTuple o mem = .ub .staticAssert := by
  refine ⟨?_, destructure_gt _ _ h, ?_⟩
  · unfold structGet
    split
    · rw [destructure_gt _ _ h, Outcome.bind_ub]
    · rfl
  · unfold toTuple
    rw [destructure_gt _ _ h, Outcome.bind_ub]

/-- **C65 (value categories).** For a non-const rvalue `struct_get` is a reference to const if there is one member and to non-const if
there are more; a reference member of a const object is const if it is the only member and not const otherwise. -/
theorem structGet_single_const :
    structGet 0 { members := [{ cell := 5 }], isRvalue := true } = .ok ⟨5, true⟩ ∧
    structGet 0 { members := [{ cell := 5 }, { cell := 6 }], isRvalue := true } = .ok ⟨5, false⟩ ∧
    structGet 0 { members := [{ cell := 5, isRef := true }], isConst := true } = .ok ⟨5, true⟩ ∧
    structGet 0 { members := [{ cell := 5, isRef := true }, { cell := 6 }], isConst := true } = .ok ⟨5, false⟩ := by
  decide

-- the hypotheses are met
example : PlainAt { members := [{ cell := 2 }, { cell := 3 }, { cell := 4 }] } 2 := rfl
example : (structGet 1 { members := [{ cell := 2 }, { cell := 3 }, { cell := 4 }] } >>= fun r => writeRef [10, 11, 12, 13, 14] r 99) =
    .ok [10, 11, 12, 99, 14] := by decide
example : toTuple { members := [{ cell := 2 }, { cell := 0, isRef := true }, { cell := 4, isConst := true }] } [10, 11, 12, 13, 14] =
    .ok [(12, false), (10, false), (14, true)] := by decide

/-! ## The theorems applied to concrete data -/

private def exObj : Obj := { members := [{ cell := 2 }, { cell := 3 }, { cell := 4 }] }

example := toTupleRef_spec exObj (by decide)
example := structGet_spec exObj (by decide) 1 (by decide)
example := structGet_assign exObj 2 [10, 11, 12, 13, 14] rfl (by decide) (by decide) rfl (by decide) 1 (by decide) 99
example := toTuple_spec exObj [10, 11, 12, 13, 14] (by decide) (by decide) (by decide)
example := toPair_spec { members := [{ cell := 2 }, { cell := 3 }] } [10, 11, 12, 13, 14] _ _ rfl
example := structGet_limit { members := List.replicate 51 { cell := 0 } } [10] 7 (by decide)

end Vir.StructReflect
