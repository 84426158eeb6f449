import Verif.Model.BitCast
import Verif.Lemmas.Simd

namespace Vir.BitCast
open Simd

theorem laneBytes_length (w x : Nat) : (laneBytes w x).length = w := by
  induction w generalizing x with
  | zero => rfl
  | succ w ih => simp [laneBytes, ih]

theorem laneBytes_lt (w x : Nat) : ∀ b ∈ laneBytes w x, b < 256 := by
  induction w generalizing x with
  | zero => simp [laneBytes]
  | succ w ih =>
    intro b hb
    simp only [laneBytes, List.mem_cons] at hb
    rcases hb with h | h
    · subst h; exact Nat.mod_lt _ (by decide)
    · exact ih _ b h

theorem laneOfBytes_laneBytes (w x : Nat) (h : x < 256 ^ w) : laneOfBytes (laneBytes w x) = x := by
  induction w generalizing x with
  | zero => simp at h; subst h; rfl
  | succ w ih =>
    rw [Nat.pow_succ] at h
    rw [laneBytes, laneOfBytes, ih _ (by omega)]
    omega

theorem laneOfBytes_lt (bs : List Nat) (h : ∀ b ∈ bs, b < 256) : laneOfBytes bs < 256 ^ bs.length := by
  induction bs with
  | nil => simp [laneOfBytes]
  | cons b bs ih =>
    have h1 := h b (List.mem_cons_self ..)
    have h2 := ih fun x hx => h x (List.mem_cons_of_mem _ hx)
    rw [laneOfBytes, List.length_cons, Nat.pow_succ]
    omega

theorem laneOfBytes_append (a b : List Nat) :
    laneOfBytes (a ++ b) = laneOfBytes a + 256 ^ a.length * laneOfBytes b := by
  induction a with
  | nil => simp [laneOfBytes]
  | cons x a ih =>
    rw [List.cons_append, laneOfBytes, laneOfBytes, ih, List.length_cons, Nat.pow_succ, Nat.mul_add, ← Nat.mul_assoc,
      Nat.mul_comm 256 (256 ^ _), Nat.add_assoc]

theorem objBytes_length (w : Nat) (v : List Nat) : (objBytes w v).length = w * v.length := by
  induction v with
  | nil => simp [objBytes]
  | cons x v ih =>
    rw [objBytes, List.flatMap_cons, List.length_append, laneBytes_length]
    rw [objBytes] at ih
    rw [ih, List.length_cons, Nat.mul_succ, Nat.add_comm]

theorem objBytes_lt (w : Nat) (v : List Nat) : ∀ b ∈ objBytes w v, b < 256 := by
  intro b hb
  obtain ⟨x, _, hx⟩ := List.mem_flatMap.1 hb
  exact laneBytes_lt w x b hx

theorem objOfBytes_length (w n : Nat) (bs : List Nat) : (objOfBytes w n bs).length = n := by
  induction n generalizing bs with
  | zero => rfl
  | succ n ih => simp [objOfBytes, ih]

theorem objOfBytes_lt (w n : Nat) (bs : List Nat) (h : ∀ b ∈ bs, b < 256) : ∀ x ∈ objOfBytes w n bs, x < 256 ^ w := by
  induction n generalizing bs with
  | zero => simp [objOfBytes]
  | succ n ih =>
    intro x hx
    simp only [objOfBytes, List.mem_cons] at hx
    rcases hx with hx | hx
    · subst hx
      refine Nat.lt_of_lt_of_le (laneOfBytes_lt _ fun b hb => h b (List.mem_of_mem_take hb)) ?_
      exact Nat.pow_le_pow_right (by decide) (by simp; omega)
    · exact ih _ (fun b hb => h b (List.mem_of_mem_drop hb)) x hx

theorem objOfBytes_objBytes (w : Nat) (v : List Nat) (h : ∀ x ∈ v, x < 256 ^ w) :
    objOfBytes w v.length (objBytes w v) = v := by
  induction v with
  | nil => rfl
  | cons x v ih =>
    have hx := h x (List.mem_cons_self ..)
    have hv := ih fun y hy => h y (List.mem_cons_of_mem _ hy)
    rw [objBytes] at hv ⊢
    rw [List.flatMap_cons, List.length_cons, objOfBytes, List.take_left' (laneBytes_length w x),
      List.drop_left' (laneBytes_length w x), hv, laneOfBytes_laneBytes w x hx]

theorem bitCast_self (w : Nat) (v : List Nat) (h : ∀ x ∈ v, x < 256 ^ w) : bitCast w w v.length v = .ok v := by
  rw [bitCast, if_pos rfl, objOfBytes_objBytes w v h]

theorem lanewise_eq {op : Nat → Nat → Nat} {x y : List Nat} (hl : y.length = x.length) :
    lanewise op x y = .ok (List.zipWith op x y) := by
  refine gen_list (by simp [hl]) fun j r hr => ?_
  obtain ⟨hj, hr⟩ := List.getElem?_eq_some_iff.1 hr
  simp only [List.length_zipWith, hl, Nat.min_self] at hj
  rw [List.getElem_zipWith] at hr
  simp [at'_eq hj, at'_eq (show j < y.length by omega), hr]

theorem floatOp_eq {op : Nat → Nat → Nat} {w : Nat} {a b : List Nat} (hl : b.length = a.length)
    (ha : ∀ x ∈ a, x < 256 ^ w) (hb : ∀ x ∈ b, x < 256 ^ w)
    (hop : ∀ x y, x < 256 ^ w → y < 256 ^ w → op x y < 256 ^ w) :
    floatOp op w a b = .ok (List.zipWith op a b) := by
  unfold floatOp
  split
  · rw [bitCast_self w a ha, Outcome.bind_ok, bitCast_self w b hb, Outcome.bind_ok, lanewise_eq hl, Outcome.bind_ok,
      bitCast_self]
    intro r hr
    obtain ⟨i, hi, hr⟩ := List.getElem_of_mem hr
    rw [List.getElem_zipWith] at hr
    rw [← hr]
    exact hop _ _ (ha _ (List.getElem_mem _)) (hb _ (List.getElem_mem _))
  · refine gen_list (by simp [hl]) fun j r hr => ?_
    obtain ⟨hj, hr⟩ := List.getElem?_eq_some_iff.1 hr
    simp only [List.length_zipWith, hl, Nat.min_self] at hj
    rw [List.getElem_zipWith] at hr
    have hja := ha _ (List.getElem_mem hj)
    have hjb := hb _ (List.getElem_mem (show j < b.length by omega))
    have h1 : bitCast w w 1 [a[j]] = .ok [a[j]] := bitCast_self w [a[j]] (by simpa using hja)
    have h2 : bitCast w w 1 [b[j]] = .ok [b[j]] := bitCast_self w [b[j]] (by simpa using hjb)
    have h3 : bitCast w w 1 [op a[j] b[j]] = .ok [op a[j] b[j]] :=
      bitCast_self w [op a[j] b[j]] (by simpa using hop _ _ hja hjb)
    rw [at'_eq hj, Outcome.bind_ok, h1, Outcome.bind_ok, at'_eq (show j < b.length by omega), Outcome.bind_ok, h2,
      Outcome.bind_ok, lanewise_eq (by simp), Outcome.bind_ok]
    simp only [List.zipWith_cons_cons, List.zipWith_nil_left, h3, Outcome.bind_ok]
    rw [at'_eq (by simp), ← hr]
    rfl

end Vir.BitCast
