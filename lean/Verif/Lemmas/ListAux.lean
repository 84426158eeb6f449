import Verif.Spec.Calls

namespace Vir
open Spec

variable {σ α : Type}

@[simp] theorem elems_nil : Spec.elems [] = 0 := rfl
@[simp] theorem elems_cons (c : Call) (cs) : Spec.elems (c :: cs) = c.elems + Spec.elems cs := rfl
@[simp] theorem elems_append (a b : List Call) : Spec.elems (a ++ b) = Spec.elems a + Spec.elems b := by
  simp [Spec.elems]
@[simp] theorem elems_replicate (n : Nat) (c : Call) : Spec.elems (List.replicate n c) = n * c.elems := by
  simp [Spec.elems]

@[simp] theorem chunks_length (w k : Nat) (xs : List α) : (chunks w k xs).length = k := by
  induction k generalizing xs with
  | zero => rfl
  | succ k ih => simp [chunks, ih]

theorem chunks_flatten (w k : Nat) (xs : List α) : (chunks w k xs).flatten = xs.take (w * k) := by
  induction k generalizing xs with
  | zero => simp [chunks]
  | succ k ih =>
    simp only [chunks, List.flatten_cons, ih]
    rw [Nat.mul_succ, Nat.add_comm, List.take_add]

theorem chunks_map_length (w k : Nat) (xs : List α) (h : w * k ≤ xs.length) :
    (chunks w k xs).map List.length = List.replicate k w := by
  induction k generalizing xs with
  | zero => rfl
  | succ k ih =>
    rw [Nat.mul_succ] at h
    simp only [chunks, List.map_cons, List.replicate_succ, List.length_take]
    rw [ih _ (by simp; omega)]
    congr 1; omega

theorem chunks_append (w k : Nat) (xs ys : List α) (h : w * k ≤ xs.length) :
    chunks w k (xs ++ ys) = chunks w k xs := by
  induction k generalizing xs with
  | zero => rfl
  | succ k ih =>
    rw [Nat.mul_succ] at h
    simp only [chunks]
    rw [List.take_append_of_le_length (by omega), List.drop_append_of_le_length (by omega),
      ih _ (by simp; omega)]

theorem flatten_length_eq {a b : List (List α)} (h : a.map List.length = b.map List.length) :
    a.flatten.length = b.flatten.length := by
  simp [List.length_flatten, h]

theorem run_nil (f : Callable σ α) (wb : Bool) (s : σ) (xs : List α) : run f wb [] s xs = (s, xs) := rfl

/-- Sequential composition of traversals. -/
theorem run_append (f : Callable σ α) (wb : Bool) (a b : List Call) (s : σ) (xs : List α)
    (h : Spec.elems a ≤ xs.length) :
    run f wb (a ++ b) s xs =
      let r := run f wb a s (xs.take (Spec.elems a))
      let t := run f wb b r.1 (xs.drop (Spec.elems a))
      (t.1, r.2 ++ t.2) := by
  induction a generalizing s xs with
  | nil => simp [run]
  | cons c a ih =>
    simp only [elems_cons] at h
    simp only [List.cons_append, run, elems_cons]
    have h1 : (xs.take (c.elems + Spec.elems a)).drop c.elems = (xs.drop c.elems).take (Spec.elems a) := by
      rw [List.drop_take]; congr 1; omega
    have h2 : chunks c.w c.k (xs.take (c.elems + Spec.elems a)) = chunks c.w c.k xs := by
      conv => rhs; rw [← List.take_append_drop (c.elems + Spec.elems a) xs]
      rw [chunks_append]
      simp [Call.elems] at *; omega
    rw [ih _ _ (by simp; omega)]
    simp only [h1, h2, List.drop_drop, List.append_assoc, List.take_take]
    rw [Nat.min_eq_left (by omega)]

theorem run_length (f : Callable σ α) (wb : Bool) (cs : List Call) (s : σ) (xs : List α)
    (h : Spec.elems cs ≤ xs.length) : (run f wb cs s xs).2.length = xs.length := by
  induction cs generalizing s xs with
  | nil => rfl
  | cons c cs ih =>
    simp only [elems_cons] at h
    simp only [run, List.length_append]
    rw [ih _ _ (by simp; omega)]
    have : (f.call s (chunks c.w c.k xs)).2.flatten.length = c.elems := by
      rw [flatten_length_eq (f.shape _ _), chunks_flatten]
      simp [Call.elems] at *; omega
    cases wb <;> simp [this] <;> omega

end Vir
