import Verif.Lemmas.ForEachTrace

/-! The groups of `for_each` and `transform` use aligned accesses at aligned positions only. -/

namespace Vir
open Spec ForEach Transform

/-- The alignment promise holds for groups laid out one after the other from position `p`. -/
def GroupsAligned (e : Env) : Nat → List Group → Prop
  | _, [] => True
  | p, g :: gs => (g.aligned = true → AlignedSeq e p (List.replicate g.k g.w)) ∧ GroupsAligned e (p + g.elems) gs

theorem groupsAligned_append (e : Env) (p : Nat) (a b : List Group) :
    GroupsAligned e p (a ++ b) ↔ GroupsAligned e p a ∧ GroupsAligned e (p + span a) b := by
  induction a generalizing p with
  | nil => simp [GroupsAligned]
  | cons g a ih => simp [GroupsAligned, ih, and_assoc, Nat.add_assoc]

theorem groupsAligned_chunked (e : Env) (p : Nat) (aligned : Bool) (ws : List Nat) (h : aligned = true → AlignedSeq e p ws) :
    GroupsAligned e p (chunked aligned ws) := by
  induction ws generalizing p with
  | nil => trivial
  | cons w ws ih =>
    refine ⟨fun ha => ⟨(h ha).1, trivial⟩, ?_⟩
    simp only [Group.elems, Nat.mul_one]
    exact ih _ fun ha => (h ha).2

theorem groupsAligned_replicate {e : Env} (wf : e.WF) (p q k : Nat) (aligned : Bool)
    (h : aligned = true → e.al e.size ∣ e.size * e.sz ∧ e.al e.size ∣ e.addr + p * e.sz) :
    GroupsAligned e p (List.replicate q ⟨e.size, aligned, k⟩) := by
  induction q generalizing p with
  | zero => trivial
  | succ q ih =>
    rw [List.replicate_succ]
    refine ⟨fun ha => alignedSeq_replicate wf (h ha).1 p (h ha).2 k, ih _ fun ha => ⟨(h ha).1, ?_⟩⟩
    have := dvd_shift (h ha).1 (h ha).2 k
    rw [Nat.mul_comm k] at this
    exact this

theorem groupsOf_aligned {e : Env} (wf : e.WF) {n : Nat} (hp : n = 0 ∨ proCount e n ≤ n) : GroupsAligned e 0 (groupsOf e n) := by
  unfold groupsOf
  by_cases hn : n = 0
  · simp [hn, GroupsAligned]
  rw [if_neg hn]
  have hp : proCount e n ≤ n := by omega
  simp only [groupsAligned_append, Nat.zero_add]
  have hpal := proCount_aligned wf n
  refine ⟨?_, ?_, ?_, ?_⟩
  · apply groupsAligned_chunked
    intro _
    rcases proCount_cases e n with h | ⟨h1, h2, h3⟩
    · rw [h]; trivial
    · obtain ⟨K, hK⟩ := proInfo wf h1
      have hlt := hK.tp_lt h2
      have hal := hK.tp_al
      rw [← h3] at hlt hal
      have hs := alignedSeq_asc wf hal 0 K (by simpa using hK.le_size) (by simpa using hlt)
      rw [bitsAsc_eq _ _ hlt] at hs
      simpa [Nat.mod_one] using hs
  · simp only [span_chunked, bitsAsc_sum]
    exact groupsAligned_replicate wf _ _ _ _ hpal
  · simp only [span_chunked, bitsAsc_sum, span_replicate, Group.elems]
    refine groupsAligned_replicate wf _ _ _ _ fun h => ⟨(hpal h).1, ?_⟩
    have := dvd_shift (hpal h).1 (hpal h).2 (unrolledIters e (n - proCount e n) * unroll e)
    rw [Nat.mul_assoc, Nat.mul_comm (unroll e)] at this
    exact this
  · apply groupsAligned_chunked
    intro h
    have hsum := groupsOf_span (e := e) (Or.inr hp)
    unfold groupsOf at hsum
    rw [if_neg hn] at hsum
    simp only [span_chunked, bitsAsc_sum, span_append, span_replicate, Group.elems, bitsDesc_sum, Nat.mul_one] at hsum ⊢
    have h1 := dvd_shift (hpal h).1 (hpal h).2 (unrolledIters e (n - proCount e n) * unroll e)
    rw [Nat.mul_assoc, Nat.mul_comm (unroll e)] at h1
    have h2 := dvd_shift (hpal h).1 h1 ((n - proCount e n - unrolledIters e (n - proCount e n) * (e.size * unroll e)) / e.size)
    have hlt := Nat.mod_lt (n - proCount e n) wf.size_pos
    generalize (n - proCount e n) % e.size = l at *
    have key := alignedSeq_desc wf (l := l) (k := l.log2 + 1) (fun j hj hb => by
      have := Nat.ge_two_pow_of_testBit hb; omega) h2 0 (Nat.dvd_zero _)
    rw [bitsDesc_eq l (l.log2 + 1) (lt_two_pow_log2_succ l)] at key
    simpa using key

end Vir
