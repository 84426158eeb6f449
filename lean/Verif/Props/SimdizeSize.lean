import Verif.Lemmas.SimdizeType

/-!
# C84: `simdize_size`
-/

namespace Vir.SimdizeTy

private theorem leaves_struct {n : Nat} {c : Ty} {cs : List Ty} :
    (∀ l ∈ leavesL (c :: cs), ∃ k, l = .simd k n) ↔ (∀ l ∈ c.leaves, ∃ k, l = .simd k n) ∧ ∀ l ∈ leavesL cs, ∃ k, l = .simd k n := by
  rw [leavesL]
  constructor
  · exact fun h => ⟨fun l hl => h l (List.mem_append_left _ hl), fun l hl => h l (List.mem_append_right _ hl)⟩
  · rintro ⟨h1, h2⟩ l hl
    rcases List.mem_append.1 hl with h | h
    · exact h1 l h
    · exact h2 l h

/-- What is claimed of one type. -/
private def SizeOk (ls : List Leaf) (r : Outcome Nat) : Prop :=
  ∃ n, r = .ok n ∧ ∀ m, 0 < m → (n = m ↔ ∀ l ∈ ls, ∃ k, l = .simd k m)

mutual
private theorem size_ok : (t : Ty) → t.NoEmptyStruct → SizeOk t.leaves (simdizeSize t)
  | .scalar k, _ => ⟨0, rfl, fun m hm => by simp [Ty.leaves]; omega⟩
  | .opaque k, _ => ⟨0, rfl, fun m hm => by simp [Ty.leaves]; omega⟩
  | .simd k n, _ => ⟨n, rfl, fun m hm => by simp [Ty.leaves]⟩
  | .agg _ ms, h => by
    rw [Ty.NoEmptyStruct] at h
    rw [simdizeSize, Ty.leaves]
    exact members_ok ms h.1 h.2
  | .spec _ _ ms _, h => by
    rw [Ty.NoEmptyStruct] at h
    rw [simdizeSize, Ty.leaves]
    exact members_ok ms h.1 h.2
  | .simdTuple ms _, h => by
    rw [Ty.NoEmptyStruct] at h
    rw [simdizeSize, Ty.leaves]
    exact members_ok ms h.1 h.2
  | .vstruct ms _, h => by
    rw [Ty.NoEmptyStruct] at h
    rw [simdizeSize, Ty.leaves]
    exact members_ok ms h.1 h.2
private theorem members_ok : (ms : List Ty) → ms ≠ [] → NoEmptyStructL ms → SizeOk (leavesL ms) (sizeOfMembers ms)
  | [], h, _ => absurd rfl h
  | c :: cs, _, h => by
    rw [NoEmptyStructL] at h
    obtain ⟨n, hn, hc⟩ := size_ok c h.1
    obtain ⟨b, hb, hcs⟩ := all_ok n cs h.2
    refine ⟨if b then n else 0, by rw [sizeOfMembers, hn, Outcome.bind_ok, hb, Outcome.bind_ok], fun m hm => ?_⟩
    rw [leaves_struct, ← hc m hm]
    cases b with
    | true =>
      simp only [if_true]
      constructor
      · rintro rfl; exact ⟨rfl, (hcs hm).1 rfl⟩
      · exact fun h => h.1
    | false =>
      simp only [Bool.false_eq_true, if_false]
      constructor
      · omega
      · rintro ⟨rfl, h2⟩
        exact absurd ((hcs hm).2 h2) (by simp)
private theorem all_ok (n : Nat) : (cs : List Ty) → NoEmptyStructL cs →
    ∃ b, allEqualTo n cs = .ok b ∧ (0 < n → (b = true ↔ ∀ l ∈ leavesL cs, ∃ k, l = .simd k n))
  | [], _ => ⟨true, by rw [allEqualTo], fun _ => by simp [leavesL]⟩
  | c :: cs, h => by
    rw [NoEmptyStructL] at h
    obtain ⟨m, hm, hc⟩ := size_ok c h.1
    obtain ⟨b, hb, hcs⟩ := all_ok n cs h.2
    refine ⟨n == m && b, by rw [allEqualTo, hm, Outcome.bind_ok, hb, Outcome.bind_ok], fun hn => ?_⟩
    rw [leaves_struct, ← hc n hn, ← hcs hn, Bool.and_eq_true, beq_iff_eq]
    exact ⟨fun h => ⟨h.1.symm, h.2⟩, fun h => ⟨h.1.symm, h.2⟩⟩
end

/-- **C84.** Whatever the nesting, as long as every struct has a member: `simdize_size_v<T>` is `m > 0` exactly if every leaf of `T`
is a `simd` of width `m`. Hence it is zero exactly if there is no such common width. -/
theorem simdizeSize_spec (t : Ty) (h : t.NoEmptyStruct) :
    ∃ n, simdizeSize t = .ok n ∧ ∀ m, 0 < m → (n = m ↔ ∀ l ∈ t.leaves, ∃ k, l = .simd k m) :=
  size_ok t h

mutual
private theorem size_ub : (t : Ty) → ¬ t.NoEmptyStruct → simdizeSize t = .ub .staticAssert
  | .scalar _, h => absurd (by simp [Ty.NoEmptyStruct]) h
  | .opaque _, h => absurd (by simp [Ty.NoEmptyStruct]) h
  | .simd _ _, h => absurd (by simp [Ty.NoEmptyStruct]) h
  | .agg _ ms, h => by rw [Ty.NoEmptyStruct] at h; rw [simdizeSize]; exact members_ub ms h
  | .spec _ _ ms _, h => by rw [Ty.NoEmptyStruct] at h; rw [simdizeSize]; exact members_ub ms h
  | .simdTuple ms _, h => by rw [Ty.NoEmptyStruct] at h; rw [simdizeSize]; exact members_ub ms h
  | .vstruct ms _, h => by rw [Ty.NoEmptyStruct] at h; rw [simdizeSize]; exact members_ub ms h
private theorem members_ub : (ms : List Ty) → ¬ (ms ≠ [] ∧ NoEmptyStructL ms) → sizeOfMembers ms = .ub .staticAssert
  | [], _ => by rw [sizeOfMembers]
  | c :: cs, h => by
    rw [sizeOfMembers]
    by_cases hc : c.NoEmptyStruct
    · obtain ⟨n, hn, _⟩ := size_ok c hc
      rw [hn, Outcome.bind_ok, all_ub n cs fun hcs => h ⟨by simp, by rw [NoEmptyStructL]; exact ⟨hc, hcs⟩⟩]
      rfl
    · rw [size_ub c hc]
      rfl
private theorem all_ub (n : Nat) : (cs : List Ty) → ¬ NoEmptyStructL cs → allEqualTo n cs = .ub .staticAssert
  | [], h => absurd (by simp [NoEmptyStructL]) h
  | c :: cs, h => by
    rw [allEqualTo]
    by_cases hc : c.NoEmptyStruct
    · obtain ⟨m, hm, _⟩ := size_ok c hc
      rw [hm, Outcome.bind_ok, all_ub n cs fun hcs => h (by rw [NoEmptyStructL]; exact ⟨hc, hcs⟩)]
      rfl
    · rw [size_ub c hc]
      rfl
end

/-- **C84, false for empty structs.** The documented value for types that are no `simd` is zero. If a struct without members occurs
in `T`, the program is ill-formed instead, and only then. -/
theorem simdizeSize_ill_formed_iff (t : Ty) : simdizeSize t = .ub .staticAssert ↔ ¬ t.NoEmptyStruct := by
  refine ⟨fun h hne => ?_, size_ub t⟩
  obtain ⟨n, hn, _⟩ := size_ok t hne
  rw [hn] at h
  cases h

/-- **C84.** Leaves that are no simds, or have different widths, give zero. -/
theorem simdizeSize_zero (t : Ty) (h : t.NoEmptyStruct) (hmix : ¬ ∃ m, 0 < m ∧ ∀ l ∈ t.leaves, ∃ k, l = .simd k m) :
    simdizeSize t = .ok 0 := by
  obtain ⟨n, hn, hs⟩ := size_ok t h
  rw [hn]
  rcases Nat.eq_zero_or_pos n with rfl | hp
  · rfl
  · exact absurd ⟨n, hp, (hs n hp).1 rfl⟩ hmix

mutual
private theorem vectorizable_scalars : (t : Ty) → t.Vectorizable → ∀ l ∈ t.leaves, ∃ k, l = .scalar k
  | .scalar k, _, l, hl => by simp [Ty.leaves] at hl; exact ⟨k, hl⟩
  | .opaque _, h, _, _ => by simp [Ty.Vectorizable] at h
  | .simd _ _, h, _, _ => by simp [Ty.Vectorizable] at h
  | .simdTuple _ _, h, _, _ => by simp [Ty.Vectorizable] at h
  | .vstruct _ _, h, _, _ => by simp [Ty.Vectorizable] at h
  | .agg _ ms, h, l, hl => by rw [Ty.Vectorizable] at h; rw [Ty.leaves] at hl; exact vectorizable_scalarsL ms h.2 l hl
  | .spec _ _ ms _, h, l, hl => by rw [Ty.Vectorizable] at h; rw [Ty.leaves] at hl; exact vectorizable_scalarsL ms h.2 l hl
private theorem vectorizable_scalarsL : (ts : List Ty) → VectorizableL ts → ∀ l ∈ leavesL ts, ∃ k, l = .scalar k
  | [], _, _, hl => by simp [leavesL] at hl
  | t :: ts, h, l, hl => by
    rw [VectorizableL] at h
    rw [leavesL] at hl
    rcases List.mem_append.1 hl with hl | hl
    · exact vectorizable_scalars t h.1 l hl
    · exact vectorizable_scalarsL ts h.2 l hl
end

private theorem vectorizable_leaves (t : Ty) (w : Nat) (h : t.Vectorizable) (l : Leaf) (hl : l ∈ t.leaves.map (Leaf.vec w)) :
    ∃ k, l = .simd k w := by
  obtain ⟨l', hl', rfl⟩ := List.mem_map.1 hl
  obtain ⟨k, rfl⟩ := vectorizable_scalars t h l' hl'
  exact ⟨k, rfl⟩

/-- **C84.** `simdize_size_v` of a simdized type is its `size()`, the documented width. -/
theorem simdizeSize_simdize (P : Plat) (t : Ty) (hu : t.Uniform) (N : Nat) (R : Ty) (h : simdize P t N = .ok R) (ht : R ≠ t)
    (hne : R.NoEmptyStruct) (hw : 0 < docWidth P t N) :
    simdizeSize R = .ok (docWidth P t N) ∧ R.size = some (docWidth P t N) := by
  rcases simdizeImpl_sound P t hu h with rfl | ⟨h1, h2, h3⟩
  · exact absurd rfl ht
  · refine ⟨?_, h1⟩
    obtain ⟨n, hn, hs⟩ := size_ok R hne
    rw [hn, (hs _ hw).2 (by rw [h2]; exact vectorizable_leaves t _ h3)]

mutual
private theorem vectorizable_noEmpty : (t : Ty) → t.Vectorizable → t.NoEmptyStruct
  | .scalar _, _ => by simp [Ty.NoEmptyStruct]
  | .opaque _, _ => by simp [Ty.NoEmptyStruct]
  | .simd _ _, _ => by simp [Ty.NoEmptyStruct]
  | .simdTuple _ _, h => by simp [Ty.Vectorizable] at h
  | .vstruct _ _, h => by simp [Ty.Vectorizable] at h
  | .agg _ ms, h => by rw [Ty.Vectorizable] at h; rw [Ty.NoEmptyStruct]; exact ⟨h.1, vectorizable_noEmptyL ms h.2⟩
  | .spec _ _ ms _, h => by rw [Ty.Vectorizable] at h; rw [Ty.NoEmptyStruct]; exact ⟨h.1, vectorizable_noEmptyL ms h.2⟩
private theorem vectorizable_noEmptyL : (ts : List Ty) → VectorizableL ts → NoEmptyStructL ts
  | [], _ => by simp [NoEmptyStructL]
  | t :: ts, h => by
    rw [VectorizableL] at h; rw [NoEmptyStructL]
    exact ⟨vectorizable_noEmpty t h.1, vectorizable_noEmptyL ts h.2⟩
end

mutual
private theorem simdize_noEmpty (P : Plat) : (t : Ty) → t.Plain → t.Vectorizable → ∀ {N R}, simdizeImpl P t N = .ok R → R.NoEmptyStruct
  | .scalar k, _, _, N, R, h => by
    unfold simdizeImpl at h
    dsimp only at h
    split at h <;> injection h with h <;> subst h <;> simp [Ty.NoEmptyStruct]
  | .opaque _, _, h, _, _, _ => by simp [Ty.Vectorizable] at h
  | .simd _ _, _, h, _, _, _ => by simp [Ty.Vectorizable] at h
  | .simdTuple _ _, _, h, _, _, _ => by simp [Ty.Vectorizable] at h
  | .vstruct _ _, _, h, _, _, _ => by simp [Ty.Vectorizable] at h
  | .spec .., h, _, _, _, _ => by simp [Ty.Plain] at h
  | .agg id ms, hp, hv, N, R, h => by
    have hv' := hv
    rw [Ty.Vectorizable] at hv'
    rw [Ty.Plain] at hp
    unfold simdizeImpl at h
    rw [(recVec_iff _).2 hv] at h
    simp only [Bool.not_true, Bool.false_eq_true, if_false] at h
    obtain ⟨ds, hds, h⟩ := bind_ok_inv h
    obtain ⟨d, hd, h⟩ := bind_ok_inv h
    obtain ⟨es, hes, h⟩ := bind_ok_inv h
    split at h
    · injection h with h
      subst h
      have := simdize_noEmptyL P ms hp hv'.2 hes
      rw [Ty.NoEmptyStruct]
      exact ⟨fun e => hv'.1 (by rw [e] at this; exact List.length_eq_zero_iff.1 this.2.symm), this.1⟩
    · injection h with h
      subst h
      exact vectorizable_noEmpty _ hv
private theorem simdize_noEmptyL (P : Plat) : (ts : List Ty) → PlainL ts → VectorizableL ts → ∀ {N rs}, simdizeList P ts N = .ok rs →
    NoEmptyStructL rs ∧ rs.length = ts.length
  | [], _, _, N, rs, h => by
    simp only [simdizeList] at h
    injection h with h
    subst h
    simp [NoEmptyStructL]
  | t :: ts, hp, hv, N, rs, h => by
    simp only [simdizeList] at h
    obtain ⟨r, hr, h⟩ := bind_ok_inv h
    obtain ⟨rs', hrs, h⟩ := bind_ok_inv h
    injection h with h
    subst h
    rw [PlainL] at hp
    rw [VectorizableL] at hv
    have h1 := simdize_noEmpty P t hp.1 hv.1 hr
    have h2 := simdize_noEmptyL P ts hp.2 hv.2 hrs
    rw [NoEmptyStructL]
    exact ⟨⟨h1, h2.1⟩, by simp [h2.2]⟩
end

/-- **C84.** The same without a condition on the result, for structs of scalars and structs. -/
theorem simdizeSize_simdize_plain (P : Plat) (hP : P.WF) (t : Ty) (hp : t.Plain) (hv : t.Vectorizable) (N : Nat) (R : Ty)
    (h : simdize P t N = .ok R) (ht : R ≠ t) :
    simdizeSize R = .ok (docWidth P t N) ∧ R.size = some (docWidth P t N) := by
  refine simdizeSize_simdize P t (plain_uniform t hp) N R h ht (simdize_noEmpty P t hp hv h) ?_
  unfold docWidth
  split
  · exact widest_pos hP t hv
  · omega

/-! ### the theorems are about something -/

/-- A tuple of simds with a nested struct of simds, all of width four. -/
private def exFour : Ty := .agg 1 [.simd 1 4, .agg 2 [.simd 4 4, .simd 8 4]]

example : simdizeSize exFour = .ok 4 := by decide +kernel
example : exFour.NoEmptyStruct := by simp [exFour, Ty.NoEmptyStruct, NoEmptyStructL]
/-- Another width inside, a scalar inside, no simd at all. -/
example : simdizeSize (.agg 1 [.simd 1 4, .agg 2 [.simd 4 8, .simd 8 8]]) = .ok 0 := by decide +kernel
example : simdizeSize (.agg 1 [.simd 1 4, .scalar 4]) = .ok 0 := by decide +kernel
example : simdizeSize (.agg 1 [.scalar 4, .scalar 4]) = .ok 0 := by decide +kernel
/-- `std::tuple<>`, also as a member. -/
example : simdizeSize (.agg 1 [.simd 1 4, .agg 2 []]) = .ub .staticAssert := by decide +kernel
/-- A simdized struct. -/
example : (simdize (fallback (fun k => k) 16) (.agg 1 [.scalar 4, .agg 2 [.scalar 8, .scalar 4]]) 0 >>= simdizeSize) = .ok 4 := by
  rfl

/-! ## The theorems applied to concrete data -/

private theorem exFour_noEmpty : exFour.NoEmptyStruct := by simp [exFour, Ty.NoEmptyStruct, NoEmptyStructL]

private def exFlat : Ty := .agg 1 [.scalar 4, .scalar 4]

private theorem exFlat_plain : exFlat.Plain ∧ exFlat.Vectorizable := by simp [exFlat, Ty.Plain, PlainL, Ty.Vectorizable, VectorizableL]

example := simdizeSize_spec exFour exFour_noEmpty
example := simdizeSize_zero exFlat (by simp [exFlat, Ty.NoEmptyStruct, NoEmptyStructL]) (by
  rintro ⟨m, -, h⟩
  obtain ⟨k, hk⟩ := h (.scalar 4) (by simp [exFlat, Ty.leaves, leavesL])
  cases hk)

end Vir.SimdizeTy
