import Verif.Spec.Reduce
import Mathlib.Data.List.Perm.Basic

namespace Vir
open Spec

variable {β γ : Type}

theorem Spec.GSum.ne_nil {r : β → β → β} {xs : List β} {v : β} (h : GSum r xs v) : xs ≠ [] := by
  induction h with
  | single => simp
  | node _ _ ih1 _ => simp [ih1]
  | perm hp _ ih => intro h; subst h; exact ih (List.perm_nil.1 hp)

/-- Generalized sums are preserved by homomorphisms. -/
theorem Spec.GSum.map {r : β → β → β} {r' : γ → γ → γ} (f : β → γ) (hf : ∀ a b, f (r a b) = r' (f a) (f b))
    {xs : List β} {v : β} (h : GSum r xs v) : GSum r' (xs.map f) (f v) := by
  induction h with
  | single x => exact GSum.single _
  | node _ _ ih1 ih2 => rw [List.map_append, hf]; exact GSum.node ih1 ih2
  | perm hp _ ih => exact GSum.perm (hp.map f) ih

/-- The operands of a generalized sum may themselves be generalized sums. -/
theorem Spec.GSum.subst {r : β → β → β} {acc : List β} {v : β} (h : GSum r acc v) {xss : List (List β)}
    (hx : List.Forall₂ (GSum r) xss acc) : GSum r xss.flatten v := by
  induction h generalizing xss with
  | single x =>
    cases hx with
    | cons h1 h2 => cases h2; simpa using h1
  | @node xs ys a b _ _ ih1 ih2 =>
    obtain ⟨l1, l2, rfl, h1, h2⟩ : ∃ l1 l2, xss = l1 ++ l2 ∧ List.Forall₂ (GSum r) l1 xs ∧
        List.Forall₂ (GSum r) l2 ys := by
      refine ⟨xss.take xs.length, xss.drop xs.length, (List.take_append_drop _ _).symm, ?_, ?_⟩
      · have := List.forall₂_take xs.length hx; simpa using this
      · have := List.forall₂_drop xs.length hx; simpa using this
    rw [List.flatten_append]
    exact GSum.node (ih1 h1) (ih2 h2)
  | @perm xs ys a hp _ ih =>
    have : Relation.Comp (List.Forall₂ (GSum r)) List.Perm xss xs := ⟨ys, hx, hp.symm⟩
    rw [List.forall₂_comp_perm_eq_perm_comp_forall₂] at this
    obtain ⟨l, hl1, hl2⟩ := this
    exact GSum.perm hl1.symm.flatten (ih hl2)

/-- `acc` is a vector of generalized sums that together use the elements of `xs`. -/
def VSum (r : β → β → β) (xs : List β) (acc : List β) : Prop :=
  ∃ xss, List.Forall₂ (GSum r) xss acc ∧ xss.flatten.Perm xs

theorem VSum.refl (r : β → β → β) (xs : List β) : VSum r xs xs := by
  refine ⟨xs.map fun x => [x], ?_, ?_⟩
  · rw [List.forall₂_map_left_iff, List.forall₂_same]
    intro x _; exact GSum.single x
  · induction xs with
    | nil => simp
    | cons x xs ih => simpa using ih

theorem VSum.perm {r : β → β → β} {xs ys acc : List β} (h : VSum r xs acc) (hp : xs.Perm ys) : VSum r ys acc := by
  obtain ⟨xss, h1, h2⟩ := h
  exact ⟨xss, h1, h2.trans hp⟩

theorem VSum.reduce {r : β → β → β} {xs acc : List β} {v : β} (h : VSum r xs acc) (hv : GSum r acc v) :
    GSum r xs v := by
  obtain ⟨xss, h1, h2⟩ := h
  exact GSum.perm h2 (hv.subst h1)

theorem zipWith_append_flatten_perm (a b : List (List β)) (h : a.length = b.length) :
    (List.zipWith (· ++ ·) a b).flatten.Perm (a.flatten ++ b.flatten) := by
  induction a generalizing b with
  | nil => cases b with
    | nil => simp
    | cons _ _ => simp at h
  | cons x a ih => cases b with
    | nil => simp at h
    | cons y b =>
      simp only [List.zipWith_cons_cons, List.flatten_cons]
      have := ih b (by simpa using h)
      refine ((this.append_left (x ++ y))).trans ?_
      simp only [List.append_assoc]
      refine List.Perm.append_left x ?_
      rw [← List.append_assoc, ← List.append_assoc]
      exact List.Perm.append_right _ List.perm_append_comm

theorem forall₂_zip {δ : Type} {G : List β → δ → Prop} {op : δ → δ → δ}
    (hG : ∀ {xs ys a b}, G xs a → G ys b → G (xs ++ ys) (op a b)) {xss yss : List (List β)} {a b : List δ}
    (h1 : List.Forall₂ G xss a) (h2 : List.Forall₂ G yss b) :
    List.Forall₂ G (List.zipWith (· ++ ·) xss yss) (List.zipWith op a b) := by
  induction h1 generalizing yss b with
  | nil => simp
  | cons hx _ ih =>
    cases h2 with
    | nil => simp
    | cons hy h2 => simp only [List.zipWith_cons_cons]; exact List.Forall₂.cons (hG hx hy) (ih h2)

theorem VSum.zip {r : β → β → β} {xs ys a b : List β} (h1 : VSum r xs a) (h2 : VSum r ys b)
    (hl : a.length = b.length) : VSum r (xs ++ ys) (List.zipWith r a b) := by
  obtain ⟨xss, p1, q1⟩ := h1
  obtain ⟨yss, p2, q2⟩ := h2
  refine ⟨List.zipWith (· ++ ·) xss yss, forall₂_zip (fun h1 h2 => GSum.node h1 h2) p1 p2, ?_⟩
  refine (zipWith_append_flatten_perm xss yss ?_).trans (q1.append q2)
  rw [p1.length_eq, p2.length_eq, hl]

/-- Splitting a vector splits the elements it accumulates. -/
theorem VSum.split {r : β → β → β} {xs acc : List β} (h : VSum r xs acc) (k : Nat) :
    ∃ ys zs, (ys ++ zs).Perm xs ∧ VSum r ys (acc.take k) ∧ VSum r zs (acc.drop k) := by
  obtain ⟨xss, p, q⟩ := h
  refine ⟨(xss.take k).flatten, (xss.drop k).flatten, ?_, ⟨_, List.forall₂_take k p, List.Perm.refl _⟩,
    ⟨_, List.forall₂_drop k p, List.Perm.refl _⟩⟩
  rw [← List.flatten_append, List.take_append_drop]
  exact q

theorem VSum.fold {r : β → β → β} {xs acc : List β} (h : VSum r xs acc) {k : Nat} (hk : acc.length = k + k) :
    VSum r xs (List.zipWith r (acc.take k) (acc.drop k)) := by
  obtain ⟨ys, zs, hp, h1, h2⟩ := h.split k
  exact (h1.zip h2 (by simp [hk])).perm hp

/-- Combining vectors of generalized sums lane by lane. -/
theorem Spec.GSum.vsum {r : β → β → β} {accs : List (List β)} {v : List β} (h : GSum (List.zipWith r) accs v)
    (w : Nat) (hw : ∀ a ∈ accs, a.length = w) {xss : List (List β)} (hx : List.Forall₂ (VSum r) xss accs) :
    v.length = w ∧ VSum r xss.flatten v := by
  induction h generalizing xss with
  | single x =>
    cases hx with
    | cons h1 h2 => cases h2; exact ⟨hw x (by simp), by simpa using h1⟩
  | @node xs ys a b _ _ ih1 ih2 =>
    obtain ⟨l1, l2, rfl, h1, h2⟩ : ∃ l1 l2, xss = l1 ++ l2 ∧ List.Forall₂ (VSum r) l1 xs ∧
        List.Forall₂ (VSum r) l2 ys := by
      refine ⟨xss.take xs.length, xss.drop xs.length, (List.take_append_drop _ _).symm, ?_, ?_⟩
      · have := List.forall₂_take xs.length hx; simpa using this
      · have := List.forall₂_drop xs.length hx; simpa using this
    obtain ⟨la, va⟩ := ih1 (fun x hx => hw x (by simp [hx])) h1
    obtain ⟨lb, vb⟩ := ih2 (fun x hx => hw x (by simp [hx])) h2
    rw [List.flatten_append]
    exact ⟨by simp [la, lb], va.zip vb (by rw [la, lb])⟩
  | @perm xs ys a hp _ ih =>
    have : Relation.Comp (List.Forall₂ (VSum r)) List.Perm xss xs := ⟨ys, hx, hp.symm⟩
    rw [List.forall₂_comp_perm_eq_perm_comp_forall₂] at this
    obtain ⟨l, hl1, hl2⟩ := this
    obtain ⟨h1, h2⟩ := ih (fun x hx => hw x (hp.subset hx)) hl2
    exact ⟨h1, h2.perm hl1.symm.flatten⟩

/-! ### associative and commutative operations -/

/-- Left fold without initial value. -/
def fold1 (r : β → β → β) (xs : List β) : Option β :=
  xs.foldl (fun o b => some (match o with | none => b | some a => r a b)) none

theorem foldl_some (r : β → β → β) (a : β) (xs : List β) :
    xs.foldl (fun o b => some (match o with | none => b | some a => r a b)) (some a) = some (xs.foldl r a) := by
  induction xs generalizing a with
  | nil => rfl
  | cons x xs ih => exact ih _

theorem fold1_cons (r : β → β → β) (x : β) (xs : List β) : fold1 r (x :: xs) = some (xs.foldl r x) :=
  foldl_some r x xs

theorem foldl_assoc' {r : β → β → β} (ha : ∀ a b c, r (r a b) c = r a (r b c)) (z x : β) (xs : List β) :
    xs.foldl r (r z x) = r z (xs.foldl r x) := by
  induction xs generalizing x with
  | nil => rfl
  | cons y xs ih => simp only [List.foldl_cons]; rw [ha, ih]

/-- For an associative and commutative operation there is only one generalized sum: the left fold. -/
theorem Spec.GSum.eq_fold1 {r : β → β → β} (ha : ∀ a b c, r (r a b) c = r a (r b c)) (hc : ∀ a b, r a b = r b a)
    {xs : List β} {v : β} (h : GSum r xs v) : fold1 r xs = some v := by
  induction h with
  | single x => rfl
  | @node xs ys a b _ _ ih1 ih2 =>
    cases xs with
    | nil => simp [fold1] at ih1
    | cons x xs =>
      cases ys with
      | nil => simp [fold1] at ih2
      | cons y ys =>
        rw [fold1_cons, Option.some.injEq] at ih1 ih2
        rw [List.cons_append, fold1_cons, List.foldl_append, ih1, List.foldl_cons, foldl_assoc' ha, ih2]
  | @perm xs ys a hp _ ih =>
    rw [← ih]
    refine (List.Perm.foldl_eq' hp ?_ none).symm
    intro x _ y _ o
    cases o with
    | none => simp [hc]
    | some a => simp only; rw [ha, ha, hc x y]

theorem Spec.GSum.eq_foldl {r : β → β → β} (ha : ∀ a b c, r (r a b) c = r a (r b c)) (hc : ∀ a b, r a b = r b a)
    {x : β} {xs : List β} {v : β} (h : GSum r (x :: xs) v) : v = xs.foldl r x := by
  have := h.eq_fold1 ha hc
  rw [fold1_cons, Option.some.injEq] at this
  exact this.symm

end Vir
