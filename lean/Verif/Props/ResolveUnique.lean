import Verif.Props.Resolve

/-!
# C87: calls of the algorithms are never ambiguous
-/

namespace Vir.Resolve
open Spec

variable {Ty : Type} [DecidableEq Ty]

/-- At most two candidates, one of which is more specialised than the other. -/
private def ordered {A : Type} [DecidableEq A] (ms : A → A → Bool) : List A → Bool
  | [] => true
  | [_] => true
  | [f, g] => f != g && (ms f g && !ms g f || ms g f && !ms f g)
  | _ => false

private theorem sublist_one {A : Type} {us : List A} {f : A} (h : us.Sublist [f]) : us = [] ∨ us = [f] := by
  rw [List.sublist_cons_iff] at h
  rcases h with h | ⟨r, rfl, h⟩
  · exact .inl (List.sublist_nil.1 h)
  · rw [List.sublist_nil.1 h]
    exact .inr rfl

private theorem pick {A : Type} [DecidableEq A] (ms : A → A → Bool) (us vs : List A) (hs : us.Sublist vs) (h : ordered ms vs = true) :
    us = [] ∨ ∃ x, (us.filter fun f => us.all fun g => f == g || ms f g) = [x] := by
  have one : ∀ x : A, ([x].filter fun f => [x].all fun g => f == g || ms f g) = [x] := by intro x; simp
  match vs, h, hs with
  | [], _, hs => exact .inl (List.sublist_nil.1 hs)
  | [f], _, hs =>
    rcases sublist_one hs with rfl | rfl
    · exact .inl rfl
    · exact .inr ⟨f, one f⟩
  | [f, g], h, hs =>
    simp only [ordered, Bool.and_eq_true, Bool.or_eq_true, Bool.not_eq_true', bne_iff_ne, ne_eq] at h
    obtain ⟨c, h⟩ := h
    have c' : ¬ g = f := fun h => c h.symm
    rw [List.sublist_cons_iff] at hs
    rcases hs with hs | ⟨r, rfl, hr⟩
    · rcases sublist_one hs with rfl | rfl
      · exact .inl rfl
      · exact .inr ⟨g, one g⟩
    · rcases sublist_one hr with rfl | rfl
      · exact .inr ⟨f, one f⟩
      · right
        rcases h with ⟨a, b⟩ | ⟨a, b⟩
        · exact ⟨f, by simp [a, b, c']⟩
        · exact ⟨g, by simp [a, b, c]⟩

private theorem resolve_ordered (W : Types Ty) (args : List (Arg Ty)) {cands vs : List Overload} (h1 : ordered moreSpecialised vs = true)
    (h2 : (cands.filter (viable W args)).Sublist vs) : resolve W cands args ≠ .ambiguous := by
  have key := pick moreSpecialised _ vs h2 h1
  unfold resolve
  generalize List.filter (viable W args) cands = us at key
  rcases key with rfl | ⟨x, h⟩
  · exact fun h => by cases h
  · simp only [h]
    exact fun h => by cases h

private theorem by_length (W : Types Ty) (args : List (Arg Ty)) (cands : List Overload) :
    (cands.filter (viable W args)).Sublist (cands.filter fun o => o.params.length == args.length) := by
  have : cands.filter (viable W args) = (cands.filter fun o => o.params.length == args.length).filter (viable W args) := by
    rw [List.filter_filter]
    apply List.filter_congr
    intro o _
    cases hv : viable W args o with
    | false => rfl
    | true => simp [viable_length W hv]
  rw [this]
  exact List.filter_sublist

/-- **C87 (never ambiguous).** Whatever the arguments are, in both namespaces. -/
theorem never_ambiguous (W : Types Ty) (al : Algo) (args : List (Arg Ty)) :
    call W (virSet al) args ≠ .ambiguous ∧ call W (stdSet al) args ≠ .ambiguous := by
  have key : ∀ cands, resolve W cands args ≠ .ambiguous → call W cands args ≠ .ambiguous := by
    intro cands h
    unfold call
    cases hr : resolve W cands args with
    | noMatch => simp
    | ambiguous => exact absurd hr h
    | ok o => simp only []; split <;> simp
  have long : ∀ cands : List Overload, (∀ o ∈ cands, o.params.length < 8) → (∀ n < 8, ordered moreSpecialised (cands.filter fun o => o.params.length == n) = true) →
      resolve W cands args ≠ .ambiguous := by
    intro cands hl hn
    refine resolve_ordered W args ?_ (by_length W args cands)
    by_cases h : args.length < 8
    · exact hn _ h
    · rw [List.filter_eq_nil_iff.2 fun o ho => by have := hl o ho; simp; omega]
      rfl
  constructor <;> apply key <;> cases al <;> exact long _ (by decide) (by decide +kernel)

/-- **C87 (the chosen overload).** Overload resolution chooses a viable candidate exactly if it is more specialised than each of the other
viable candidates and none of those is more specialised than it; a chosen overload is therefore the only one with this property. -/
theorem resolve_best (W : Types Ty) (cands : List Overload) (hn : cands.Nodup) (args : List (Arg Ty)) (f : Overload) :
    resolve W cands args = .ok f ↔
      f ∈ cands ∧ viable W args f = true ∧
        ∀ g ∈ cands, viable W args g = true → g ≠ f → atLeast f g = true ∧ atLeast g f = false := by
  unfold resolve
  simp only []
  have hvn : (cands.filter (viable W args)).Nodup := hn.filter _
  have hmem : ∀ g, g ∈ cands.filter (viable W args) ↔ g ∈ cands ∧ viable W args g = true := fun g => List.mem_filter
  have key : f ∈ (cands.filter (viable W args)).filter (fun f => (cands.filter (viable W args)).all fun g => f == g || moreSpecialised f g) ↔
      f ∈ cands ∧ viable W args f = true ∧
        ∀ g ∈ cands, viable W args g = true → g ≠ f → atLeast f g = true ∧ atLeast g f = false := by
    rw [List.mem_filter, hmem, and_assoc]
    refine and_congr_right fun _ => and_congr_right fun _ => ?_
    simp only [List.all_eq_true, hmem, moreSpecialised, Bool.or_eq_true, beq_iff_eq, Bool.and_eq_true, Bool.not_eq_true', and_imp]
    exact ⟨fun h g h1 h2 h3 => (h g h1 h2).resolve_left fun h => h3 h.symm, fun h g h1 h2 =>
      (Decidable.em (f = g)).imp_right fun h3 => h g h1 h2 fun h => h3 h.symm⟩
  constructor
  · intro h
    rw [← key]
    split at h
    · rename_i x hx
      cases h
      rw [hx]
      exact List.mem_singleton.2 rfl
    · split at h <;> cases h
  · intro h
    have hb := key.2 h
    have hone : (cands.filter (viable W args)).filter (fun f => (cands.filter (viable W args)).all fun g => f == g || moreSpecialised f g) = [f] := by
      refine List.perm_singleton.1 ((List.perm_ext_iff_of_nodup (hvn.filter _) (by simp)).2 fun x => ?_)
      rw [List.mem_singleton]
      refine ⟨fun hx => ?_, fun hx => hx ▸ hb⟩
      obtain ⟨h1, h2⟩ := List.mem_filter.1 hx
      have h3 := List.all_eq_true.1 h2 f ((hmem f).2 ⟨h.1, h.2.1⟩)
      simp only [moreSpecialised, Bool.or_eq_true, beq_iff_eq, Bool.and_eq_true, Bool.not_eq_true'] at h3
      rcases h3 with h3 | h3
      · exact h3
      · by_cases hxf : x = f
        · exact hxf
        · obtain ⟨h4, h5⟩ := (hmem x).1 h1
          have := (h.2.2 x h4 h5 hxf).1
          rw [h3.2] at this
          cases this
    rw [hone]

example (args : List (Arg CTy)) (f : Overload) :=
  resolve_best cpp (virSet .transform) (by decide +kernel) args f

example := never_ambiguous cpp .transform [lv .policy, lv (.array 0 8), lv (.array 0 8), lv (.array 1 8), rv .binary]

end Vir.Resolve
