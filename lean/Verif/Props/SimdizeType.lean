import Verif.Lemmas.SimdizeType

/-!
# C58-C60: which type `simdize<T, N>` is
-/

namespace Vir.SimdizeTy

/-- **C58.** Whatever the nesting, `simdize<T, N>` is either `T` itself or a data-parallel type of the documented width
(`N`, or for `N = 0` the largest native width among the leaves) whose leaves are, in order, the leaves of `T` turned into
`simd`s of that one width. -/
theorem simdize_leaves (P : Plat) (t : Ty) (hu : t.Uniform) (N : Nat) (R : Ty) (h : simdize P t N = .ok R) :
    R = t ∨
    (R.size = some (docWidth P t N) ∧ R.leaves = t.leaves.map (Leaf.vec (docWidth P t N)) ∧ t.Vectorizable) :=
  simdizeImpl_sound P t hu h

/-- In the examples the scalars are named by their size: 1, 2, 4 and (anything else) 8 bytes. -/
def stdBytes (k : Nat) : Nat := if k = 1 ∨ k = 2 ∨ k = 4 then k else 8

/-- `Tpl<T>` with members `T x; T y;` for the scalar `4` (bytes), with its instantiations for widths 4, 8 and 16. -/
def exPoint : Ty :=
  .spec 1 [.scalar 4] [.scalar 4, .scalar 4]
    [(4, [.simd 4 4, .simd 4 4]), (8, [.simd 4 8, .simd 4 8]), (16, [.simd 4 16, .simd 4 16])]

/-- A struct of a scalar of one byte, a point and a struct. -/
def exNested : Ty := .agg 2 [.scalar 1, exPoint, .agg 3 [.scalar 8, .scalar 4]]

theorem exNested_uniform : exNested.Uniform := by
  have h : ∀ n ts, (match exPoint with | .spec _ _ _ s => s | _ => []).lookup n = some ts →
      leavesL ts = (leavesL [.scalar 4, .scalar 4]).map (Leaf.vec n) := by
    intro n ts
    by_cases h4 : n = 4
    · subst h4; intro h; injection h with h; subst h; decide +kernel
    by_cases h8 : n = 8
    · subst h8; intro h; injection h with h; subst h; decide +kernel
    by_cases h16 : n = 16
    · subst h16; intro h; injection h with h; subst h; decide +kernel
    have e : ∀ m, n ≠ m → (n == m) = false := fun m hm => by simpa using hm
    simp [exPoint, List.lookup, e 4 h4, e 8 h8, e 16 h16]
  simp only [exNested, exPoint, Ty.Uniform, UniformL, and_true, true_and]
  exact h

example : simdize (fallback stdBytes 16) exNested 4 = .ok (.simdTuple [.simd 1 4, .vstruct [.simd 4 4, .simd 4 4] 4,
    .simdTuple [.simd 8 4, .simd 4 4] 4] 4) := by rfl

example : docWidth (fallback stdBytes 16) exNested 0 = 16 := by decide +kernel

/-- **C59 (exact condition).** For structs built from scalars and structs, whatever the nesting: `simdize<T, N>` is
data-parallel exactly if all leaves are scalars, no struct is empty, every scalar has a `simd` of the documented width, and
every struct inside `T` can be simdized with its own default width, even if `N` is given. -/
theorem simdize_vectorizes_iff (P : Plat) (hP : P.WF) (t : Ty) (hp : t.Plain) (ht : t.size = none) (N : Nat) :
    (∃ R, simdize P t N = .ok R ∧ R.size ≠ none) ↔
      t.Vectorizable ∧ t.InnerOk P ∧ Enabled P (docWidth P t N) t.leaves := by
  have hpl : t.Uniform := by
    have hb : ∀ u : Ty, u.Plain → u.Uniform := fun u => plain_uniform u
    exact hb t hp
  constructor
  · rintro ⟨R, hR, hs⟩
    rcases simdize_leaves P t hpl N R hR with rfl | ⟨-, -, hv⟩
    · exact absurd ht hs
    · have := simdizeImpl_plain hP t hp hv N
      by_cases hi : t.InnerOk P
      · refine ⟨hv, hi, ?_⟩
        by_contra he
        obtain ⟨R', hR', hres⟩ := this.1 hi
        have hRR : R' = R := by
          have h1 : simdizeImpl P t N = .ok R := hR
          rw [hR'] at h1
          injection h1
        rw [← hRR, hres.2 he] at hs
        exact hs ht
      · have h1 : simdizeImpl P t N = .ok R := hR
        rw [this.2 hi] at h1
        simp at h1
  · rintro ⟨hv, hi, he⟩
    obtain ⟨R, hR, hres⟩ := (simdizeImpl_plain hP t hp hv N).1 hi
    exact ⟨R, hR, by rw [hres.1 he]; simp⟩

example : (libstdcxx stdBytes 64).WF := by
  constructor <;> intro k <;> by_cases h : k = 1 ∨ k = 2 ∨ k = 4
  · rcases h with rfl | rfl | rfl <;> decide
  · simp [libstdcxx, stdBytes, h]
  · rcases h with rfl | rfl | rfl <;> decide
  · simp [libstdcxx, stdBytes, h]

/-- **C59 (ill-formed programs).** `simdize<T, N>` is a hard error exactly if `T` is a struct of scalars that contains a
struct which cannot be simdized with its own default width; the width `N` asked for plays no role. -/
theorem simdize_ill_formed_iff (P : Plat) (hP : P.WF) (t : Ty) (hp : t.Plain) (N : Nat) :
    simdize P t N = .ub .staticAssert ↔ t.Vectorizable ∧ ¬ t.InnerOk P := by
  constructor
  · intro h
    have h' : simdizeImpl P t N = .ub .staticAssert := h
    by_cases hv : t.Vectorizable
    · refine ⟨hv, fun hi => ?_⟩
      obtain ⟨R, hR, -⟩ := (simdizeImpl_plain hP t hp hv N).1 hi
      rw [hR] at h'
      simp at h'
    · exfalso
      cases t with
      | scalar k => exact hv (by simp [Ty.Vectorizable])
      | agg id ms =>
        have : (Ty.agg id ms).recVec = false := by
          cases hr : (Ty.agg id ms).recVec with
          | false => rfl
          | true => exact absurd ((recVec_iff _).mp hr) hv
        unfold simdizeImpl at h'
        simp [this] at h'
      | spec id args ms s => simp [Ty.Plain] at hp
      | _ => simp [simdizeImpl] at h'
  · rintro ⟨hv, hi⟩
    exact (simdizeImpl_plain hP t hp hv N).2 hi

/-- Otherwise `simdize<T, N>` silently is `T`. -/
theorem simdize_unchanged (P : Plat) (hP : P.WF) (t : Ty) (hp : t.Plain) (N : Nat) (hw : t.Vectorizable → t.InnerOk P)
    (h : ¬ (t.Vectorizable ∧ Enabled P (docWidth P t N) t.leaves)) : simdize P t N = .ok t := by
  by_cases hv : t.Vectorizable
  · obtain ⟨R, hR, hres⟩ := (simdizeImpl_plain hP t hp hv N).1 (hw hv)
    have := hres.2 (fun he => h ⟨hv, he⟩)
    subst this
    exact hR
  · cases t with
    | scalar k => exact absurd (by simp [Ty.Vectorizable]) hv
    | agg id ms =>
      have : (Ty.agg id ms).recVec = false := by
        cases hr : (Ty.agg id ms).recVec with
        | false => rfl
        | true => exact absurd ((recVec_iff _).mp hr) hv
      unfold simdize simdizeImpl
      simp [this]
    | spec id args ms s => simp [Ty.Plain] at hp
    | _ => simp [simdize, simdizeImpl]

/-- **C59 with the fallback `simd` of this library** (`/repo/vir/simd.h`): every struct of scalars is simdized with every
width. -/
theorem simdize_fallback (bytes : Nat → Nat) (vec : Nat) (hb : ∀ k, 0 < bytes k ∧ (bytes k ≤ 8 → bytes k ≤ vec)) (t : Ty)
    (hp : t.Plain) (hv : t.Vectorizable) (N : Nat) :
    ∃ R, simdize (fallback bytes vec) t N = .ok R ∧
      R.size = some (docWidth (fallback bytes vec) t N) ∧
      R.leaves = t.leaves.map (Leaf.vec (docWidth (fallback bytes vec) t N)) := by
  have hpos : ∀ k, 0 < (fallback bytes vec).native k := by
    intro k
    simp only [fallback]
    split
    · omega
    · exact Nat.div_pos ((hb k).2 (by omega)) (hb k).1
  have hP : (fallback bytes vec).WF := ⟨hpos, fun k => by simpa [fallback] using hpos k⟩
  have hen : ∀ n ls, 0 < n → Enabled (fallback bytes vec) n ls := fun n ls hn k _ => by simpa [fallback] using hn
  have hin : t.InnerOk (fallback bytes vec) := innerOk_of_enabled hP hen t hv
  have hd : 0 < docWidth (fallback bytes vec) t N := by
    unfold docWidth
    split
    · exact widest_pos hP t hv
    · omega
  have hs : t.size = none := size_none hv
  obtain ⟨R, hR, hne⟩ := (simdize_vectorizes_iff _ hP t hp hs N).mpr ⟨hv, hin, hen _ _ hd⟩
  rcases simdize_leaves _ t (plain_uniform t hp) N R hR with rfl | ⟨h1, h2, -⟩
  · exact absurd hs hne
  · exact ⟨R, hR, h1, h2⟩

example : (Ty.agg 0 [.scalar 1, .agg 1 [.scalar 8, .scalar 2]]).Plain ∧
    (Ty.agg 0 [.scalar 1, .agg 1 [.scalar 8, .scalar 2]]).Vectorizable := by
  simp [Ty.Plain, PlainL, Ty.Vectorizable, VectorizableL]

/-- **C59 is false with libstdc++ and AVX-512**: for `struct { signed char; double; }` the documented width is 64, but
`simdize` yields the struct itself. -/
theorem simdize_stays_scalar :
    docWidth (libstdcxx stdBytes 64) (.agg 0 [.scalar 1, .scalar 8]) 0 = 64 ∧
    simdize (libstdcxx stdBytes 64) (.agg 0 [.scalar 1, .scalar 8]) 0 = .ok (.agg 0 [.scalar 1, .scalar 8]) := by
  exact ⟨by decide +kernel, rfl⟩

/-- And a struct that contains that struct cannot be named in `simdize` at all, not even with width 8, although all its
leaves have a `simd` of width 8. -/
theorem simdize_hard_error :
    Enabled (libstdcxx stdBytes 64) 8 (Ty.agg 1 [.agg 0 [.scalar 1, .scalar 8], .scalar 4]).leaves ∧
    simdize (libstdcxx stdBytes 64) (.agg 1 [.agg 0 [.scalar 1, .scalar 8], .scalar 4]) 8 = .ub .staticAssert := by
  refine ⟨?_, rfl⟩
  intro k hk
  simp only [Ty.leaves, leavesL, List.append_nil, List.cons_append, List.nil_append, List.mem_cons, Leaf.scalar.injEq,
    List.not_mem_nil, or_false] at hk
  rcases hk with rfl | rfl | rfl <;> decide

/-- **C60 (partial).** `simdize<Tpl<...>, N>` derives from `Tpl` with simdized arguments (so that the members keep their
names) only if `Tpl<...>` has a single member, or no member with more than one leaf. The property fails for templates with more than one
member, one of which is a struct of several. -/
theorem simdize_template_flat_partial (P : Plat) (id : Nat) (args ms : List Ty) (subst : List (Nat × List Ty)) (N : Nat)
    (base : List Ty) (w : Nat) (hu : (Ty.spec id args ms subst).Uniform)
    (h : simdize P (.spec id args ms subst) N = .ok (.vstruct base w)) :
    ms.length = 1 ∨ ∀ m ∈ ms, m.leaves.length = 1 := by
  rcases simdize_leaves P _ hu N _ h with he | ⟨-, -, hv⟩
  · cases he
  have h' : simdizeImpl P (.spec id args ms subst) N = .ok (.vstruct base w) := h
  unfold simdizeImpl at h'
  rw [(recVec_iff _).mpr hv] at h'
  simp only [Bool.not_true, Bool.false_eq_true, if_false] at h'
  obtain ⟨ds, hds, h'⟩ := bind_ok_inv h'
  obtain ⟨d, hd, h'⟩ := bind_ok_inv h'
  obtain ⟨as, has, h'⟩ := bind_ok_inv h'
  obtain ⟨tup, htup, h'⟩ := bind_ok_inv h'
  simp only [Ty.Uniform] at hu
  simp only [Ty.Vectorizable] at hv
  split at h'
  · rename_i hst
    rcases structTemplate_flat hu.1 hv.2 htup hst with h1 | h1
    · left
      have : ms.length ≠ 0 := by
        intro hc
        exact hv.1 (List.length_eq_zero_iff.mp hc)
      omega
    · right
      intro m hm
      rw [← count_leaves]
      exact h1 m hm
  · obtain ⟨es, hes, h'⟩ := bind_ok_inv h'
    split at h' <;> cases h'

/-- A `Line<T>` with two members `Point<T>`. -/
def exLine : Ty :=
  .spec 2 [.scalar 4] [exPoint, exPoint]
    [(4, [.agg 10 [.simd 4 4, .simd 4 4], .agg 10 [.simd 4 4, .simd 4 4]])]

/-- **C60 is false**: all leaves of `Line<float>` are vectorized by substituting the template argument, but `simdize` falls
back to `simd_tuple`. -/
theorem simdize_template_nested_wrong :
    leavesL [.agg 10 [.simd 4 4, .simd 4 4], .agg 10 [.simd 4 4, .simd 4 4]] = exLine.leaves.map (Leaf.vec 4) ∧
    simdize (fallback stdBytes 16) exPoint 0 = .ok (.vstruct [.simd 4 4, .simd 4 4] 4) ∧
    simdize (fallback stdBytes 16) exLine 0 =
      .ok (.simdTuple [.vstruct [.simd 4 4, .simd 4 4] 4, .vstruct [.simd 4 4, .simd 4 4] 4] 4) := by
  exact ⟨by decide +kernel, rfl, rfl⟩

/-! ## The theorems applied to concrete data -/

private theorem libWF : (libstdcxx stdBytes 64).WF := by
  constructor <;> intro k <;> by_cases h : k = 1 ∨ k = 2 ∨ k = 4
  · rcases h with rfl | rfl | rfl <;> decide
  · simp [libstdcxx, stdBytes, h]
  · rcases h with rfl | rfl | rfl <;> decide
  · simp [libstdcxx, stdBytes, h]

private def exAgg : Ty := .agg 0 [.scalar 1, .agg 1 [.scalar 8, .scalar 2]]

private theorem exAgg_plain : exAgg.Plain ∧ exAgg.Vectorizable := by simp [exAgg, Ty.Plain, PlainL, Ty.Vectorizable, VectorizableL]

example := simdize_leaves (fallback stdBytes 16) exNested exNested_uniform 4 _ rfl
example := simdize_vectorizes_iff (libstdcxx stdBytes 64) libWF exAgg exAgg_plain.1 rfl 8
example := simdize_ill_formed_iff (libstdcxx stdBytes 64) libWF exAgg exAgg_plain.1 8
example := simdize_fallback stdBytes 16 (fun k => by unfold stdBytes; split <;> omega) exAgg exAgg_plain.1 exAgg_plain.2 8
example := simdize_template_flat_partial (fallback stdBytes 16) 1 [.scalar 4] [.scalar 4, .scalar 4] [(4, [.simd 4 4, .simd 4 4])] 4
  [.simd 4 4, .simd 4 4] 4 (by
    simp only [Ty.Uniform, UniformL, and_true, true_and]
    intro n ts
    by_cases h4 : n = 4
    · subst h4; intro h; injection h with h; subst h; decide +kernel
    have e : (n == 4) = false := by simpa using h4
    simp [List.lookup, e]) rfl

end Vir.SimdizeTy
