import Verif.Model.FlatGet
import Mathlib.Tactic.ByContra

/-!
# C30: flattened member access
-/

namespace Vir.Spec
open Flat

mutual
/-- The leaves of an aggregate in depth-first order. -/
def leaves {α : Type} : Agg α → List α
  | .leaf a => [a]
  | .node cs => leavesL cs
/-- The leaves of a list of members. -/
def leavesL {α : Type} : List (Agg α) → List α
  | [] => []
  | c :: cs => leaves c ++ leavesL cs
end

/-- The shapes for which the library vectorises struct templates: at least two members, none of them reflectable, wrapped
in `d - 1` structs with a single member. -/
inductive Supported {α : Type} : Agg α → (d : Nat) → Prop
  | flat (as : List α) : 2 ≤ as.length → Supported (.node (as.map .leaf)) 1
  | wrap (c : Agg α) (d : Nat) : Supported c d → Supported (.node [c]) (d + 1)

mutual
/-- Every struct has a member. -/
def NoEmpty {α : Type} : Agg α → Prop
  | .leaf _ => True
  | .node cs => cs ≠ [] ∧ NoEmptyL cs
/-- The same for a list of members. -/
def NoEmptyL {α : Type} : List (Agg α) → Prop
  | [] => True
  | c :: cs => NoEmpty c ∧ NoEmptyL cs
end

/-- The structs whose leaves are all reached: members with a single leaf each, wrapped in `d - 1` structs with a single member. -/
inductive Reached {α : Type} : Agg α → (d : Nat) → Prop
  | base (cs : List (Agg α)) : cs ≠ [] → (∀ c ∈ cs, (leaves c).length = 1) → Reached (.node cs) 1
  | wrap (c : Agg α) (d : Nat) : 2 ≤ (leaves c).length → Reached c d → Reached (.node [c]) (d + 1)

/-- The member of `s` that `flat_element<i>` is meant to find: the first members of structs are opened until all members have a single leaf. -/
inductive ElementAt {α : Type} : Agg α → (i : Nat) → Agg α → Prop
  | leaf (a : α) : ElementAt (.leaf a) 0 (.leaf a)
  | flat (cs : List (Agg α)) (i : Nat) (e : Agg α) : (∀ c ∈ cs, (leaves c).length = 1) → cs[i]? = some e → ElementAt (.node cs) i e
  | first (c : Agg α) (cs : List (Agg α)) (i : Nat) (e : Agg α) : (∃ d ∈ c :: cs, (leaves d).length ≠ 1) → i < (leaves c).length →
      ElementAt c i e → ElementAt (.node (c :: cs)) i e

end Vir.Spec

namespace Vir.Flat
open Spec

variable {α : Type}

mutual
/-- **C30.** `flat_member_count` is the number of leaves. -/
theorem count_eq : (s : Agg α) → count s = (leaves s).length
  | .leaf _ => by simp [count, leaves]
  | .node cs => by rw [count, leaves]; exact countL_eq cs
theorem countL_eq : (cs : List (Agg α)) → countL cs = (leavesL cs).length
  | [] => by simp [countL, leavesL]
  | c :: cs => by rw [countL, leavesL, List.length_append, count_eq c, countL_eq cs]
end

private theorem leavesL_map (as : List α) : leavesL (as.map Agg.leaf) = as := by
  induction as with
  | nil => rfl
  | cons a as ih => rw [List.map_cons, leavesL, leaves, ih]; rfl

private theorem count_flat (as : List α) : count (.node (as.map Agg.leaf)) = (as.map Agg.leaf).length := by
  rw [count_eq, leaves, leavesL_map, List.length_map]

private theorem supported_count {s : Agg α} {d : Nat} (h : Supported s d) : 2 ≤ count s := by
  induction h with
  | flat as h2 => rw [count_flat, List.length_map]; exact h2
  | wrap c _ _ ih => rw [count, countL, countL]; omega

private theorem leaves_wrap (c : Agg α) : leaves (.node [c]) = leaves c := by simp [leaves, leavesL]

/-- **C30.** For every supported shape and every `I` below the number of leaves, `flat_get<I>` is the `I`-th leaf in depth-first
order. (Partial: other shapes, see `flatGet_wrong`.) -/
theorem flatGet_partial (s : Agg α) (d : Nat) (hs : Supported s d) (fuel : Nat) (hf : d ≤ fuel) (i : Nat)
    (hi : i < count s) : ∃ a, (leaves s)[i]? = some a ∧ flatGet fuel i 0 s = .ok (.leaf a) := by
  induction hs generalizing fuel with
  | flat as h2 =>
    obtain ⟨f, rfl⟩ : ∃ f, fuel = f + 1 := ⟨fuel - 1, by omega⟩
    rw [count_flat, List.length_map] at hi
    refine ⟨as[i], by rw [leaves, leavesL_map]; exact List.getElem?_eq_getElem hi, ?_⟩
    rw [flatGet, if_pos (count_flat as), if_pos rfl, List.getElem?_map, List.getElem?_eq_getElem hi]
    rfl
  | wrap c d hc ih =>
    have hcc := supported_count hc
    have hcount : count (.node [c]) = count c := by simp [count, countL]
    obtain ⟨f, rfl⟩ : ∃ f, fuel = f + 1 := ⟨fuel - 1, by omega⟩
    rw [hcount] at hi
    obtain ⟨a, h1, h2⟩ := ih f (by omega) hi
    refine ⟨a, by rw [leaves_wrap]; exact h1, ?_⟩
    rw [flatGet, hcount, if_neg (by simp; omega), if_neg (by simp; omega)]
    simp only [List.getElem?_cons_zero]
    rw [if_pos hi]
    exact h2

mutual
private theorem count_pos : (s : Agg α) → NoEmpty s → 1 ≤ count s
  | .leaf _, _ => by simp [count]
  | .node [], h => by simp [NoEmpty] at h
  | .node (c :: cs), h => by
    rw [NoEmpty, NoEmptyL] at h
    have := count_pos c h.2.1
    rw [count, countL]; omega
end

private theorem countL_ge : (cs : List (Agg α)) → NoEmptyL cs → cs.length ≤ countL cs
  | [], _ => by simp
  | c :: cs, h => by
    rw [NoEmptyL] at h
    have h1 := count_pos c h.1
    have h2 := countL_ge cs h.2
    rw [countL, List.length_cons]; omega

private theorem countL_eq_length : (cs : List (Agg α)) → NoEmptyL cs →
    (countL cs = cs.length ↔ ∀ c ∈ cs, (leaves c).length = 1)
  | [], _ => by simp [countL]
  | c :: cs, h => by
    rw [NoEmptyL] at h
    have h1 := count_pos c h.1
    have h2 := countL_ge cs h.2
    have h3 := countL_eq_length cs h.2
    rw [countL, List.length_cons, List.forall_mem_cons, ← h3, ← count_eq c]
    omega

private theorem leavesL_single : (cs : List (Agg α)) → (∀ c ∈ cs, (leaves c).length = 1) → (i : Nat) → (hi : i < cs.length) →
    ∃ a, leaves cs[i] = [a] ∧ (leavesL cs)[i]? = some a
  | c :: cs, h, 0, _ => by
    obtain ⟨a, ha⟩ := List.length_eq_one_iff.1 (h c (by simp))
    exact ⟨a, ha, by rw [leavesL, ha]; rfl⟩
  | c :: cs, h, i + 1, hi => by
    obtain ⟨a, ha⟩ := List.length_eq_one_iff.1 (h c (by simp))
    obtain ⟨b, h1, h2⟩ := leavesL_single cs (fun d hd => h d (by simp [hd])) i (by simpa using hi)
    exact ⟨b, h1, by rw [leavesL, ha]; simpa using h2⟩

private theorem reached_noEmpty_count {cs : List (Agg α)} (h : ∀ c ∈ cs, (leaves c).length = 1) : countL cs = cs.length := by
  induction cs with
  | nil => rfl
  | cons c cs ih =>
    rw [countL, List.length_cons, count_eq, h c (by simp), ih (fun d hd => h d (by simp [hd]))]; omega

/-- **C30.** Whenever all leaves are reached, the `I`-th type and the `I`-th value are the member whose only leaf is the `I`-th leaf
in depth-first order. -/
theorem flatGet_reached_partial (s : Agg α) (d : Nat) (hs : Reached s d) (fuel : Nat) (hf : d ≤ fuel) (i : Nat)
    (hi : i < (leaves s).length) :
    ∃ a e, (leaves s)[i]? = some a ∧ leaves e = [a] ∧ flatGet fuel i 0 s = .ok e ∧ flatElement fuel i s = .ok e := by
  induction hs generalizing fuel with
  | base cs h0 h1 =>
    obtain ⟨f, rfl⟩ : ∃ f, fuel = f + 1 := ⟨fuel - 1, by omega⟩
    have hc := reached_noEmpty_count h1
    have hi' : i < cs.length := by rw [leaves, ← countL_eq, hc] at hi; exact hi
    obtain ⟨a, h2, h3⟩ := leavesL_single cs h1 i hi'
    refine ⟨a, cs[i], by rw [leaves]; exact h3, h2, ?_, ?_⟩
    · rw [flatGet, count, if_pos hc, if_pos rfl, List.getElem?_eq_getElem hi']
    · rw [flatElement, count, if_pos hc, List.getElem?_eq_getElem hi']
  | wrap c d h2 hc ih =>
    obtain ⟨f, rfl⟩ : ∃ f, fuel = f + 1 := ⟨fuel - 1, by omega⟩
    have hcount : count (.node [c]) = count c := by simp [count, countL]
    rw [leaves_wrap] at hi
    obtain ⟨a, e, h3, h4, h5, h6⟩ := ih f (by omega) hi
    rw [← count_eq] at h2 hi
    refine ⟨a, e, by rw [leaves_wrap]; exact h3, h4, ?_, ?_⟩
    · rw [flatGet, hcount, if_neg (by simp; omega), if_neg (by simp; omega)]
      simp only [List.getElem?_cons_zero]
      rw [if_pos hi]
      exact h5
    · rw [flatElement, hcount, if_neg (by simp; omega)]
      simp only [List.getElem?_cons_zero]
      rw [if_pos ⟨by simp; omega, hi⟩]
      exact h6

/-- **C30 (exact).** The types `flat_element<I>` of all leaves exist, as the vectorisation of struct templates requires, if and only
if the struct is one of those shapes. -/
theorem flatElement_all_iff (s : Agg α) (hn : NoEmpty s) (hr : ∃ cs, s = .node cs) :
    (∃ fuel, ∀ i, i < (leaves s).length → ∃ e, flatElement fuel i s = .ok e) ↔ ∃ d, Reached s d := by
  constructor
  · rintro ⟨fuel, h⟩
    induction fuel generalizing s with
    | zero =>
      obtain ⟨e, he⟩ := h 0 (by rw [← count_eq]; exact count_pos s hn)
      simp [flatElement] at he
    | succ f ih =>
      obtain ⟨cs, rfl⟩ := hr
      rw [NoEmpty] at hn
      by_cases hc : countL cs = cs.length
      · exact ⟨1, .base cs hn.1 ((countL_eq_length cs hn.2).1 hc)⟩
      · have hge := countL_ge cs hn.2
        match cs, hn, hc, hge, h with
        | c :: cs, hn, hc, hge, h =>
          have hstep : ∀ i, i < (leaves (.node (c :: cs))).length → i < count c ∧ ∃ e, flatElement f i c = .ok e := by
            intro i hi
            obtain ⟨e, he⟩ := h i hi
            rw [flatElement, count, if_neg hc] at he
            simp only [List.getElem?_cons_zero] at he
            split at he
            · rename_i hh; exact ⟨hh.2, e, he⟩
            · cases he
          have hn2 := hn.2
          rw [NoEmptyL] at hn2
          have hpos := count_pos c hn2.1
          have hlen : (leaves (.node (c :: cs))).length = count c + countL cs := by rw [← count_eq, count, countL]
          have hlast := (hstep (count c + countL cs - 1) (by omega)).1
          have hnil : cs = [] := by
            have := countL_ge cs hn2.2
            exact List.eq_nil_of_length_eq_zero (by omega)
          subst hnil
          rw [countL, countL, List.length_singleton] at hc
          have h2 : 2 ≤ count c := by omega
          have hnode : ∃ ds, c = .node ds := by
            cases c with
            | leaf a => simp [count] at h2
            | node ds => exact ⟨ds, rfl⟩
          obtain ⟨d, hd⟩ := ih c hn2.1 hnode (fun i hi => by
            rw [← count_eq] at hi
            exact (hstep i (by rw [hlen, countL]; omega)).2)
          exact ⟨d + 1, .wrap c d (by rw [← count_eq]; exact h2) hd⟩
  · rintro ⟨d, hd⟩
    refine ⟨d, fun i hi => ?_⟩
    obtain ⟨_, e, _, _, _, h⟩ := flatGet_reached_partial s d hd d (Nat.le_refl d) i hi
    exact ⟨e, h⟩

/-- **C30.** So for every struct for which all types `flat_element<I>` exist, `flat_get<I>` returns the member whose only leaf is the
`I`-th leaf, whatever the shape. -/
theorem flatGet_of_elements (s : Agg α) (hn : NoEmpty s) (hr : ∃ cs, s = .node cs) (fuel : Nat)
    (h : ∀ i, i < (leaves s).length → ∃ e, flatElement fuel i s = .ok e) :
    ∃ depth, ∀ i, i < (leaves s).length →
      ∃ a e, (leaves s)[i]? = some a ∧ leaves e = [a] ∧ flatGet depth i 0 s = .ok e := by
  obtain ⟨d, hd⟩ := (flatElement_all_iff s hn hr).1 ⟨fuel, h⟩
  refine ⟨d, fun i hi => ?_⟩
  obtain ⟨a, e, h1, h2, h3, _⟩ := flatGet_reached_partial s d hd d (Nat.le_refl d) i hi
  exact ⟨a, e, h1, h2, h3⟩

/-- **C30 (exact, for every index).** `flat_element<I>` exists exactly if opening the first members leads to a struct with single-leaf members and
an index below their number, or to a leaf, and it is then that member. -/
theorem flatElement_iff (s : Agg α) (hn : NoEmpty s) (i : Nat) (e : Agg α) :
    (∃ fuel, flatElement fuel i s = .ok e) ↔ ElementAt s i e := by
  constructor
  · rintro ⟨fuel, h⟩
    induction fuel generalizing s with
    | zero => cases h
    | succ f ih =>
      cases s with
      | leaf a =>
        rw [flatElement] at h
        split at h
        · rename_i hi
          cases h
          subst hi
          exact .leaf a
        · cases h
      | node cs =>
        rw [NoEmpty] at hn
        rw [flatElement, count] at h
        split at h
        · rename_i hc
          cases hx : cs[i]? with
          | none => rw [hx] at h; cases h
          | some d =>
            rw [hx] at h
            cases h
            exact .flat cs i e ((countL_eq_length cs hn.2).1 hc) hx
        · rename_i hc
          match cs, hn, hc, h with
          | c :: cs, hn, hc, h =>
            simp only [List.getElem?_cons_zero] at h
            split at h
            · rename_i hh
              have hn2 := hn.2
              rw [NoEmptyL] at hn2
              refine .first c cs i e ?_ (by rw [← count_eq]; exact hh.2) (ih c hn2.1 h)
              by_contra hall
              exact hc ((countL_eq_length _ hn.2).2 fun d hd => by
                by_contra hne
                exact hall ⟨d, hd, hne⟩)
            · cases h
  · intro h
    induction h with
    | leaf a => exact ⟨1, rfl⟩
    | flat cs i e h1 h2 => exact ⟨1, by rw [flatElement, count, if_pos (reached_noEmpty_count h1), h2]⟩
    | first c cs i e h1 h2 _ ih =>
      rw [NoEmpty] at hn
      have hn2 := hn.2
      rw [NoEmptyL] at hn2
      obtain ⟨f, hf⟩ := ih hn2.1
      have hc : countL (c :: cs) ≠ (c :: cs).length := fun hc => by
        obtain ⟨d, hd, hne⟩ := h1
        exact hne ((countL_eq_length _ hn.2).1 hc d hd)
      have hge := countL_ge (c :: cs) hn.2
      refine ⟨f + 1, ?_⟩
      rw [flatElement, count, if_neg hc]
      simp only [List.getElem?_cons_zero]
      rw [if_pos ⟨by omega, by rw [count_eq]; exact h2⟩]
      exact hf

/-- **C30.** Whatever the aggregate: if `flat_element<I>` exists, its only leaf is leaf `I` in depth-first order. -/
theorem flatElement_correct (s : Agg α) (hn : NoEmpty s) (i fuel : Nat) (e : Agg α) (h : flatElement fuel i s = .ok e) :
    ∃ a, (leaves s)[i]? = some a ∧ leaves e = [a] := by
  replace h := (flatElement_iff s hn i e).1 ⟨fuel, h⟩
  clear hn
  induction h with
  | leaf a => exact ⟨a, by simp [leaves], by simp [leaves]⟩
  | flat cs i e h1 h2 =>
    obtain ⟨hi, rfl⟩ := List.getElem?_eq_some_iff.1 h2
    obtain ⟨a, h3, h4⟩ := leavesL_single cs h1 i hi
    exact ⟨a, by rw [leaves]; exact h4, h3⟩
  | first c cs i e _ h2 _ ih =>
    obtain ⟨a, h3, h4⟩ := ih
    exact ⟨a, by rw [leaves, leavesL, List.getElem?_append_left h2]; exact h3, h4⟩

/-- **C30.** Indices beyond the number of leaves do not compile. -/
theorem flatGet_rejects (s : Agg α) (d : Nat) (hs : Supported s d) (fuel : Nat) (hf : d < fuel) (i : Nat)
    (hi : count s ≤ i) : flatGet fuel i 0 s = .ub .staticAssert := by
  cases hs with
  | flat as h2 =>
    obtain ⟨f, rfl⟩ : ∃ f, fuel = f + 1 := ⟨fuel - 1, by omega⟩
    rw [count_flat] at hi
    rw [flatGet, if_pos (count_flat as), if_pos rfl, List.getElem?_eq_none hi]
  | wrap c d hc =>
    have hcc := supported_count hc
    have hcount : count (.node [c]) = count c := by simp [count, countL]
    obtain ⟨f, rfl⟩ : ∃ f, fuel = f + 2 := ⟨fuel - 2, by omega⟩
    rw [hcount] at hi
    rw [flatGet, hcount, if_neg (by simp; omega), if_neg (by simp; omega)]
    simp only [List.getElem?_cons_zero]
    rw [if_neg (by omega), flatGet, hcount, if_neg (by simp; omega), if_neg (by simp; omega),
      List.getElem?_eq_none (by simp; omega)]

/-- **C30.** `flat_element<I>` and `flat_get<I>` agree for every aggregate, whatever its shape: whenever the type exists, `flat_get`
returns that member or does not compile. -/
theorem flatElement_flatGet (fuel i : Nat) (s e : Agg α) (h : flatElement fuel i s = .ok e) :
    flatGet fuel i 0 s = .ok e ∨ flatGet fuel i 0 s = .ub .staticAssert := by
  induction fuel generalizing i s with
  | zero => simp [flatElement] at h
  | succ f ih =>
    cases s with
    | leaf a => right; rfl
    | node cs =>
      rw [flatElement] at h
      rw [flatGet]
      split at h
      · rename_i hc
        left
        rw [if_pos hc, if_pos rfl]
        exact h
      · rename_i hc
        rw [if_neg hc]
        cases h0 : cs[0]? with
        | none => rw [h0] at h; simp at h
        | some c =>
          rw [h0] at h
          simp only at h
          split at h
          · rename_i hh
            rw [if_neg (by omega)]
            simp only
            rw [if_pos hh.2]
            exact ih i c h
          · cases h

/-- **C30 (false in general).** For three members with two leaves each, `flat_get<2>` returns the first leaf of the third member, not
of the second. (The concept for struct templates rejects such types because `flat_element<2>` does not exist.) -/
theorem flatGet_wrong :
    let s : Agg Nat := .node [.node [.leaf 0, .leaf 1], .node [.leaf 2, .leaf 3], .node [.leaf 4, .leaf 5]]
    (leaves s)[2]? = some 2 ∧ flatGet 4 2 0 s = .ok (.leaf 4) ∧ flatElement 4 2 s = .ub .staticAssert := by
  refine ⟨rfl, rfl, rfl⟩

/-- **C30 (single-member structs).** For a struct that only wraps a struct with one leaf the member itself is returned. -/
theorem flatGet_single (a : α) : flatGet 2 0 0 (.node [.node [.leaf a]]) = .ok (.node [.leaf a]) := by
  simp [flatGet, count, countL]

/-! ### the theorems are about something -/

example : flatGet 3 1 0 (.node [.node [.leaf 7, .leaf 8, .leaf 9]]) = .ok (.leaf 8) := rfl
example : Supported (.node [.node [.leaf 7, .leaf 8, .leaf 9]]) 2 := .wrap _ _ (.flat [7, 8, 9] (by decide))
example : flatElement 3 1 (.node [.node [.leaf 7, .leaf 8, .leaf 9]]) = .ok (.leaf 8) := rfl

/-! ## The theorems applied to concrete data -/

private theorem wrappedOnce : Supported (.node [.node [.leaf 7, .leaf 8, .leaf 9]]) 2 := .wrap _ _ (.flat [7, 8, 9] (by decide))

example := flatGet_partial _ 2 wrappedOnce 3 (by decide) 1 (by decide)
example := flatGet_rejects _ 2 wrappedOnce 3 (by decide) 3 (by decide)
private theorem wrappedReached : Reached (.node [.node [.leaf 7, .node [.leaf 8], .leaf 9]]) 2 :=
  .wrap _ _ (by decide) (.base _ (by simp) (by simp [leaves, leavesL]))

example := flatGet_reached_partial _ 2 wrappedReached 2 (by decide) 1 (by decide)
example := (flatElement_all_iff (.node [.node [.leaf 7, .node [.leaf 8], .leaf 9]]) (by simp [NoEmpty, NoEmptyL]) ⟨_, rfl⟩).2
  ⟨2, wrappedReached⟩
/-- A struct with a pair and a scalar is not reached. -/
example : ¬ ∃ d, Reached (.node [.node [.leaf 7, .leaf 8], .leaf 9]) d := by
  rintro ⟨d, hd⟩
  cases hd with
  | base _ _ h => have := h (.node [.leaf 7, .leaf 8]) (by simp); simp [leaves, leavesL] at this
example := flatElement_flatGet 3 1 (.node [.node [.leaf 7, .leaf 8, .leaf 9]]) (.leaf 8) rfl

/-- In a struct of a number and a pair, and in one of a pair and a number, only the leaves of the first member are found. -/
example : ElementAt (.node [.leaf 7, .node [.leaf 8, .leaf 9]]) 0 (.leaf 7) :=
  .first _ _ _ _ ⟨.node [.leaf 8, .leaf 9], by simp, by simp [leaves, leavesL]⟩ (by simp [leaves]) (.leaf 7)
example := (flatElement_iff (.node [.leaf 7, .node [.leaf 8, .leaf 9]]) (by simp [NoEmpty, NoEmptyL]) 0 (.leaf 7)).1 ⟨2, rfl⟩
example := flatElement_correct (.node [.node [.leaf 7, .leaf 8], .leaf 9]) (by simp [NoEmpty, NoEmptyL]) 1 2 (.leaf 8) rfl

end Vir.Flat
