import Verif.Model.SimdMath
import Verif.Spec.InOrder
import Verif.Lemmas.Simd
import Verif.Lemmas.SimdOps

namespace Vir.Simd
open Spec

variable {α β γ δ S : Type}

theorem inOrder_length (f : α → S → β × S) (xs : List α) (s : S) : (inOrder f xs s).1.length = xs.length := by
  induction xs generalizing s with
  | nil => rfl
  | cons a as ih => simp [inOrder, ih]

theorem genSFrom_inOrder {F : Nat → S → Outcome (β × S)} {g : α → S → β × S} {xs : List α} {i : Nat} {s : S}
    (h : ∀ (j : Nat) (hj : j < xs.length) (s : S), F (i + j) s = .ok (g xs[j] s)) :
    genSFrom F xs.length i s = .ok (inOrder g xs s) := by
  induction xs generalizing i s with
  | nil => rfl
  | cons a as ih =>
    have h0 := h 0 (by simp) s
    simp only [Nat.add_zero, List.getElem_cons_zero] at h0
    have h1 := ih (i := i + 1) (s := (g a s).2) (fun j hj s => by
      have := h (j + 1) (by simpa using hj) s
      simpa [Nat.add_assoc, Nat.add_comm 1 j] using this)
    simp only [List.length_cons, genSFrom, h0, Outcome.bind_ok, h1, inOrder]

theorem genS_inOrder {F : Nat → S → Outcome (β × S)} {g : α → S → β × S} {xs : List α} {n : Nat} {s : S}
    (hn : n = xs.length) (h : ∀ (j : Nat) (hj : j < xs.length) (s : S), F j s = .ok (g xs[j] s)) :
    genS n F s = .ok (inOrder g xs s) := by
  subst hn
  exact genSFrom_inOrder (i := 0) (fun j hj s => by simpa using h j hj s)

/-- Lanes below `i` of `d` are the results so far, the others those of `orig`. -/
def Partial (d orig new : List α) (i : Nat) : Prop := d = new ++ orig.drop i ∧ new.length = i

theorem set_partial {d orig new : List α} {i : Nat} (h : Partial d orig new i) (hi : i < orig.length) (c : α) :
    Partial (d.set i c) orig (new ++ [c]) (i + 1) := by
  obtain ⟨rfl, hl⟩ := h
  refine ⟨?_, by simp [hl]⟩
  rw [List.set_append_right _ _ (by omega), hl, Nat.sub_self, List.drop_eq_getElem_cons hi, List.set_cons_zero,
    List.append_assoc]
  rfl

/-- The generator loop of functions with an output parameter. -/
theorem genSFrom_out {F : Nat → List γ × S → Outcome (β × List γ × S)} {g : α → S → (β × γ) × S} {xs : List α}
    {orig : List γ} {i : Nat} {d new : List γ} {s : S} (hlen : i + xs.length ≤ orig.length) (hp : Partial d orig new i)
    (h : ∀ (j : Nat) (hj : j < xs.length) (d : List γ) (new : List γ) (s : S), Partial d orig new (i + j) →
      F (i + j) (d, s) = .ok ((g xs[j] s).1.1, d.set (i + j) (g xs[j] s).1.2, (g xs[j] s).2)) :
    genSFrom F xs.length i (d, s) =
      .ok ((inOrder g xs s).1.map Prod.fst,
        new ++ (inOrder g xs s).1.map Prod.snd ++ orig.drop (i + xs.length), (inOrder g xs s).2) := by
  induction xs generalizing i d new s with
  | nil => simp [genSFrom, inOrder, hp.1]
  | cons a as ih =>
    have h0 := h 0 (by simp) d new s (by simpa using hp)
    simp only [Nat.add_zero, List.getElem_cons_zero] at h0
    simp only [List.length_cons] at hlen
    have h1 := ih (i := i + 1) (d := d.set i (g a s).1.2) (new := new ++ [(g a s).1.2]) (s := (g a s).2) (by omega)
      (set_partial hp (by omega) _) (fun j hj d new s hp => by
        have := h (j + 1) (by simpa using hj) d new s (by
          have e : i + (j + 1) = i + 1 + j := by omega
          rw [e]; exact hp)
        have e : i + (j + 1) = i + 1 + j := by omega
        rw [e] at this
        simpa using this)
    simp only [List.length_cons, genSFrom, h0, Outcome.bind_ok, h1, inOrder, List.map_cons, List.append_assoc,
      List.cons_append, List.nil_append]
    have e : i + 1 + as.length = i + (as.length + 1) := by omega
    rw [e]

/-- Loops that update the lanes of an object one after the other. -/
theorem forUp_inOrder {F : Nat → List β × S → Outcome (List β × S)} {g : α → S → β × S} {xs : List α} {orig : List β}
    {i : Nat} {d new : List β} {s : S} (hlen : i + xs.length ≤ orig.length) (hp : Partial d orig new i)
    (h : ∀ (j : Nat) (hj : j < xs.length) (d : List β) (new : List β) (s : S), Partial d orig new (i + j) →
      F (i + j) (d, s) = .ok (d.set (i + j) (g xs[j] s).1, (g xs[j] s).2)) :
    forUp F xs.length i (d, s) = .ok (new ++ (inOrder g xs s).1 ++ orig.drop (i + xs.length), (inOrder g xs s).2) := by
  induction xs generalizing i d new s with
  | nil => simp [forUp, inOrder, hp.1]
  | cons a as ih =>
    have h0 := h 0 (by simp) d new s (by simpa using hp)
    simp only [Nat.add_zero, List.getElem_cons_zero] at h0
    simp only [List.length_cons] at hlen
    have h1 := ih (i := i + 1) (d := d.set i (g a s).1) (new := new ++ [(g a s).1]) (s := (g a s).2) (by omega)
      (set_partial hp (by omega) _) (fun j hj d new s hp => by
        have := h (j + 1) (by simpa using hj) d new s (by
          have e : i + (j + 1) = i + 1 + j := by omega
          rw [e]; exact hp)
        have e : i + (j + 1) = i + 1 + j := by omega
        rw [e] at this
        simpa using this)
    simp only [List.length_cons, forUp, h0, Outcome.bind_ok, h1, inOrder, List.append_assoc, List.cons_append,
      List.nil_append]
    have e : i + 1 + as.length = i + (as.length + 1) := by omega
    rw [e]

theorem partial_get {d orig new : List α} {i : Nat} (h : Partial d orig new i) : d[i]? = orig[i]? := by
  obtain ⟨rfl, hl⟩ := h
  rw [List.getElem?_append_right (by omega), hl, Nat.sub_self, List.getElem?_drop, Nat.add_zero]

theorem partial_length {d orig new : List α} {i : Nat} (h : Partial d orig new i) (hi : i ≤ orig.length) :
    d.length = orig.length := by
  obtain ⟨rfl, hl⟩ := h
  simp [hl]
  omega

theorem partial_zero (orig : List α) : Partial orig orig [] 0 := ⟨by simp, rfl⟩

end Vir.Simd
