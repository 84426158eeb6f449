import Verif.Spec.SimdizeType
import Mathlib.Data.List.Forall2

namespace Vir.SimdizeTy

mutual
theorem recVec_iff : (t : Ty) → (t.recVec = true ↔ t.Vectorizable)
  | .scalar k => by simp [Ty.recVec, Ty.Vectorizable]
  | .opaque k => by simp [Ty.recVec, Ty.Vectorizable]
  | .agg id ms => by simp [Ty.recVec, Ty.Vectorizable, recVecL_iff ms]
  | .spec id args ms s => by simp [Ty.recVec, Ty.Vectorizable, recVecL_iff ms]
  | .simd k n => by simp [Ty.recVec, Ty.Vectorizable]
  | .simdTuple es n => by simp [Ty.recVec, Ty.Vectorizable]
  | .vstruct es n => by simp [Ty.recVec, Ty.Vectorizable]
theorem recVecL_iff : (ts : List Ty) → (recVecL ts = true ↔ VectorizableL ts)
  | [] => by simp [recVecL, VectorizableL]
  | c :: cs => by simp [recVecL, VectorizableL, recVec_iff c, recVecL_iff cs]
end

theorem widest_append (P : Plat) (xs ys : List Leaf) : widest P (xs ++ ys) = max (widest P xs) (widest P ys) := by
  induction xs with
  | nil => simp [widest]
  | cons x xs ih =>
    have h : ∀ zs, widest P (x :: zs) = (match x with
      | .scalar k => max (P.native k) (widest P zs)
      | _ => widest P zs) := fun _ => rfl
    rw [List.cons_append, h, h, ih]
    cases x <;> simp [Nat.max_assoc]

mutual
/-- Flat members and leaves agree in number. -/
theorem count_leaves : (t : Ty) → t.count = t.leaves.length
  | .scalar k => by simp [Ty.count, Ty.leaves]
  | .opaque k => by simp [Ty.count, Ty.leaves]
  | .agg id ms => by simp [Ty.count, Ty.leaves, countL_leaves ms]
  | .spec id args ms s => by simp [Ty.count, Ty.leaves, countL_leaves ms]
  | .simd k n => by simp [Ty.count, Ty.leaves]
  | .simdTuple es n => by simp [Ty.count, Ty.leaves, countL_leaves es]
  | .vstruct es n => by simp [Ty.count, Ty.leaves, countL_leaves es]
theorem countL_leaves : (ts : List Ty) → countL ts = (leavesL ts).length
  | [] => by simp [countL, leavesL]
  | c :: cs => by simp [countL, leavesL, count_leaves c, countL_leaves cs]
end

/-- `maxSize` succeeds only if all types are data-parallel. -/
theorem maxSize_ok {ts : List Ty} {d : Nat} (h : maxSize ts = .ok d) :
    ts ≠ [] ∧ ∃ ns : List Nat, ts.map Ty.size = ns.map some ∧ d = ns.foldr max 0 := by
  induction ts generalizing d with
  | nil => simp [maxSize] at h
  | cons t ts ih =>
    refine ⟨by simp, ?_⟩
    cases ts with
    | nil =>
      unfold maxSize at h
      cases ht : t.size with
      | none => rw [ht] at h; simp at h
      | some n =>
        rw [ht] at h
        injection h with h
        exact ⟨[n], by simp [ht], by simp [h]⟩
    | cons u us =>
      unfold maxSize at h
      cases ht : t.size with
      | none => rw [ht] at h; simp at h
      | some n =>
        rw [ht] at h
        dsimp only at h
        cases hm : maxSize (u :: us) with
        | ok m =>
          rw [hm] at h
          simp only [Outcome.bind_ok] at h
          injection h with h
          obtain ⟨-, ns, h1, h2⟩ := ih hm
          refine ⟨n :: ns, by simp only [List.map_cons, ht]; rw [← h1]; rfl, ?_⟩
          rw [← h, h2]
          rfl
        | ub r => rw [hm] at h; simp at h
        | trap => rw [hm] at h; simp at h

theorem maxSize_of {ts : List Ty} {ns : List Nat} (h : ts.map Ty.size = ns.map some) (hne : ts ≠ []) :
    maxSize ts = .ok (ns.foldr max 0) := by
  induction ts generalizing ns with
  | nil => exact absurd rfl hne
  | cons t ts ih =>
    cases ns with
    | nil => simp at h
    | cons n ns =>
      simp only [List.map_cons, List.cons.injEq] at h
      cases ts with
      | nil =>
        have : ns = [] := by simpa using h.2.symm
        subst this
        unfold maxSize
        rw [h.1]
        simp
      | cons u us =>
        unfold maxSize
        rw [h.1]
        dsimp only
        rw [ih h.2 (by simp)]
        simp

theorem allSize_iff {n : Nat} {ts : List Ty} : allSize n ts = true ↔ ∀ t ∈ ts, t.size = some n := by
  simp [allSize]

theorem size_none {t : Ty} (h : t.Vectorizable) : t.size = none := by
  cases t <;> simp_all [Ty.size, Ty.Vectorizable]

/-- What a data-parallel result of `simdizeImpl` looks like. -/
def Good (P : Plat) (t : Ty) (N : Nat) (R : Ty) : Prop :=
  R.size = some (docWidth P t N) ∧ R.leaves = t.leaves.map (Leaf.vec (docWidth P t N)) ∧ t.Vectorizable

theorem bind_ok_inv {α β : Type} {x : Outcome α} {f : α → Outcome β} {r : β} (h : (x >>= f) = .ok r) :
    ∃ a, x = .ok a ∧ f a = .ok r := by
  cases x with
  | ok a => exact ⟨a, rfl, h⟩
  | ub r => exact absurd h (by simp)
  | trap => exact absurd h (by simp)

/-- The list versions used below: equal widths give simdized leaves, default widths give the widest native width. -/
def GoodL (P : Plat) (ts : List Ty) (N : Nat) (rs : List Ty) : Prop :=
  (∀ w, allSize w rs = true → leavesL rs = (leavesL ts).map (Leaf.vec w)) ∧
  (N = 0 → ∀ ns : List Nat, rs.map Ty.size = ns.map some → ns.foldr max 0 = widest P (leavesL ts))

theorem docWidth_eq (P : Plat) {t : Ty} {N d : Nat} (h : d = widest P t.leaves) : docWidth P t N = width N d := by
  simp [docWidth, width, h]

mutual
theorem simdizeImpl_sound (P : Plat) : (t : Ty) → t.Uniform → ∀ {N R}, simdizeImpl P t N = .ok R →
    R = t ∨ Good P t N R
  | .scalar k, _, N, R, h => by
    unfold simdizeImpl at h
    dsimp only at h
    split at h
    · right
      injection h with h
      subst h
      refine ⟨?_, ?_, by simp [Ty.Vectorizable]⟩ <;>
        simp [Ty.size, Ty.leaves, Leaf.vec, docWidth, width, widest]
    · left; injection h with h; exact h.symm
  | .opaque k, _, N, R, h => by
    left
    simpa [simdizeImpl] using h.symm
  | .simd k n, _, N, R, h => by
    left
    simpa [simdizeImpl] using h.symm
  | .simdTuple es n, _, N, R, h => by
    left
    simpa [simdizeImpl] using h.symm
  | .vstruct ms n, _, N, R, h => by
    left
    simpa [simdizeImpl] using h.symm
  | .agg id ms, hu, N, R, h => by
    unfold simdizeImpl at h
    split at h
    · left; injection h with h; exact h.symm
    rename_i hv
    have hv : (Ty.agg id ms).Vectorizable := (recVec_iff _).mp (by simpa using hv)
    obtain ⟨ds, hds, h⟩ := bind_ok_inv h
    obtain ⟨d, hd, h⟩ := bind_ok_inv h
    obtain ⟨es, hes, h⟩ := bind_ok_inv h
    have hU : UniformL ms := by simpa [Ty.Uniform] using hu
    have hV : VectorizableL ms := by have := hv; simp only [Ty.Vectorizable] at this; exact this.2
    obtain ⟨-, ns, h1, h2⟩ := maxSize_ok hd
    have hdw : d = widest P (Ty.agg id ms).leaves := by
      rw [h2, (simdizeList_sound P ms hU hV hds).2 rfl ns h1, Ty.leaves]
    split at h
    · rename_i ha
      right
      injection h with h
      subst h
      have := (simdizeList_sound P ms hU hV hes).1 _ ha
      exact ⟨by rw [docWidth_eq P hdw]; rfl, by rw [docWidth_eq P hdw]; simpa [Ty.leaves] using this, hv⟩
    · left; injection h with h; exact h.symm
  | .spec id args ms subst, hu, N, R, h => by
    unfold simdizeImpl at h
    split at h
    · left; injection h with h; exact h.symm
    rename_i hv
    have hv : (Ty.spec id args ms subst).Vectorizable := (recVec_iff _).mp (by simpa using hv)
    obtain ⟨ds, hds, h⟩ := bind_ok_inv h
    obtain ⟨d, hd, h⟩ := bind_ok_inv h
    obtain ⟨as, has, h⟩ := bind_ok_inv h
    obtain ⟨tup, htup, h⟩ := bind_ok_inv h
    simp only [Ty.Uniform] at hu
    obtain ⟨hU, hS⟩ := hu
    have hV : VectorizableL ms := by have := hv; simp only [Ty.Vectorizable] at this; exact this.2
    obtain ⟨-, ns, h1, h2⟩ := maxSize_ok hd
    have hdw : d = widest P (Ty.spec id args ms subst).leaves := by
      rw [h2, (simdizeList_sound P ms hU hV hds).2 rfl ns h1, Ty.leaves]
    dsimp only at h
    split at h
    · obtain ⟨aw, haw, h⟩ := bind_ok_inv h
      split at h
      · split at h
        · left; injection h with h; exact h.symm
        · rename_i base hb
          obtain ⟨es, hes, h⟩ := bind_ok_inv h
          split at h
          · right
            injection h with h
            subst h
            have := hS _ _ hb
            exact ⟨by rw [docWidth_eq P hdw]; rfl, by rw [docWidth_eq P hdw]; simpa [Ty.leaves] using this, hv⟩
          · simp at h
      · left; injection h with h; exact h.symm
    · obtain ⟨es, hes, h⟩ := bind_ok_inv h
      split at h
      · rename_i ha
        right
        injection h with h
        subst h
        have := (simdizeList_sound P ms hU hV hes).1 _ ha
        exact ⟨by rw [docWidth_eq P hdw]; rfl, by rw [docWidth_eq P hdw]; simpa [Ty.leaves] using this, hv⟩
      · left; injection h with h; exact h.symm
theorem simdizeList_sound (P : Plat) : (ts : List Ty) → UniformL ts → VectorizableL ts → ∀ {N rs},
    simdizeList P ts N = .ok rs → GoodL P ts N rs
  | [], _, _, N, rs, h => by
    simp only [simdizeList] at h
    injection h with h
    subst h
    refine ⟨fun w _ => by simp [leavesL], fun _ ns hns => ?_⟩
    have : ns = [] := by simpa using hns.symm
    subst this
    simp [leavesL, widest]
  | t :: ts, hu, hv, N, rs, h => by
    simp only [simdizeList] at h
    obtain ⟨r, hr, h⟩ := bind_ok_inv h
    obtain ⟨rs', hrs, h⟩ := bind_ok_inv h
    injection h with h
    subst h
    simp only [UniformL] at hu
    simp only [VectorizableL] at hv
    have ih := simdizeList_sound P ts hu.2 hv.2 hrs
    have hone := simdizeImpl_sound P t hu.1 hr
    refine ⟨fun w hw => ?_, fun hN ns hns => ?_⟩
    · rw [allSize_iff] at hw
      have hrw := hw r (by simp)
      rcases hone with rfl | ⟨hs, hl, -⟩
      · rw [size_none hv.1] at hrw; simp at hrw
      · rw [hs] at hrw
        injection hrw with hrw
        rw [leavesL, leavesL, hl, hrw, ih.1 w (allSize_iff.mpr (fun t ht => hw t (by simp [ht])))]
        simp
    · cases ns with
      | nil => simp at hns
      | cons n ns =>
        simp only [List.map_cons, List.cons.injEq] at hns
        rcases hone with rfl | ⟨hs, hl, -⟩
        · rw [size_none hv.1] at hns; simp at hns
        · rw [hs] at hns
          have hn : docWidth P t N = n := by simpa using hns.1
          rw [leavesL, widest_append, List.foldr_cons, ih.2 hN ns hns.2, ← hn]
          simp [docWidth, hN]
end

theorem innerOkL_iff {P : Plat} {ts : List Ty} :
    InnerOkL P ts ↔ ∀ t ∈ ts, Enabled P (widest P t.leaves) t.leaves ∧ t.InnerOk P := by
  induction ts with
  | nil => simp [InnerOkL]
  | cons t ts ih => simp [InnerOkL, ih]

theorem mem_leavesL {l : Leaf} {ts : List Ty} : l ∈ leavesL ts ↔ ∃ t ∈ ts, l ∈ t.leaves := by
  induction ts with
  | nil => simp [leavesL]
  | cons t ts ih => simp [leavesL, ih]

theorem vectorizableL_iff {ts : List Ty} : VectorizableL ts ↔ ∀ t ∈ ts, t.Vectorizable := by
  induction ts with
  | nil => simp [VectorizableL]
  | cons t ts ih => simp [VectorizableL, ih]

mutual
theorem widest_pos {P : Plat} (hP : P.WF) : (t : Ty) → t.Vectorizable → 0 < widest P t.leaves
  | .scalar k, _ => by simpa [Ty.leaves, widest] using hP.native_pos k
  | .opaque k, h => by simp [Ty.Vectorizable] at h
  | .simd k n, h => by simp [Ty.Vectorizable] at h
  | .simdTuple es n, h => by simp [Ty.Vectorizable] at h
  | .vstruct ms n, h => by simp [Ty.Vectorizable] at h
  | .agg id ms, h => by
    simp only [Ty.Vectorizable] at h
    simpa [Ty.leaves] using widestL_pos hP ms h.2 h.1
  | .spec id args ms s, h => by
    simp only [Ty.Vectorizable] at h
    simpa [Ty.leaves] using widestL_pos hP ms h.2 h.1
theorem widestL_pos {P : Plat} (hP : P.WF) : (ts : List Ty) → VectorizableL ts → ts ≠ [] → 0 < widest P (leavesL ts)
  | [], _, h => absurd rfl h
  | t :: ts, h, _ => by
    simp only [VectorizableL] at h
    rw [leavesL, widest_append]
    exact Nat.lt_of_lt_of_le (widest_pos hP t h.1) (Nat.le_max_left _ _)
end

/-- What `simdizeImpl` does with a member, when nothing inside it is ill-formed. -/
def Res (P : Plat) (N : Nat) (t r : Ty) : Prop :=
  (Enabled P (docWidth P t N) t.leaves → r.size = some (docWidth P t N)) ∧
  (¬ Enabled P (docWidth P t N) t.leaves → r = t)

theorem forall₂_sizes {P : Plat} {N : Nat} {ts rs : List Ty} (h : List.Forall₂ (Res P N) ts rs)
    (he : ∀ t ∈ ts, Enabled P (docWidth P t N) t.leaves) :
    rs.map Ty.size = (ts.map (fun t => docWidth P t N)).map some := by
  induction h with
  | nil => rfl
  | cons h _ ih =>
    simp only [List.map_cons]
    rw [h.1 (he _ (by simp)), ih (fun t ht => he t (by simp [ht]))]

theorem forall₂_mem_left {α β : Type} {r : α → β → Prop} {xs : List α} {ys : List β} (h : List.Forall₂ r xs ys) {x : α}
    (hx : x ∈ xs) : ∃ y ∈ ys, r x y := by
  induction h with
  | nil => simp at hx
  | cons h _ ih =>
    rcases List.mem_cons.mp hx with rfl | hx
    · exact ⟨_, by simp, h⟩
    · obtain ⟨y, hy, hr⟩ := ih hx
      exact ⟨y, by simp [hy], hr⟩

theorem forall₂_mem_right {α β : Type} {r : α → β → Prop} {xs : List α} {ys : List β} (h : List.Forall₂ r xs ys) {y : β}
    (hy : y ∈ ys) : ∃ x ∈ xs, r x y := by
  induction h with
  | nil => simp at hy
  | cons h _ ih =>
    rcases List.mem_cons.mp hy with rfl | hy
    · exact ⟨_, by simp, h⟩
    · obtain ⟨x, hx, hr⟩ := ih hy
      exact ⟨x, by simp [hx], hr⟩

theorem foldr_max_map {P : Plat} (ts : List Ty) :
    (ts.map (fun t => docWidth P t 0)).foldr max 0 = widest P (leavesL ts) := by
  induction ts with
  | nil => simp [leavesL, widest]
  | cons t ts ih =>
    rw [List.map_cons, List.foldr_cons, ih, leavesL, widest_append]
    simp [docWidth]

theorem maxSize_not {ts : List Ty} (h : ∃ t ∈ ts, t.size = none) : maxSize ts = .ub .staticAssert := by
  induction ts with
  | nil => simp at h
  | cons t ts ih =>
    cases ts with
    | nil =>
      have : t.size = none := by simpa using h
      unfold maxSize
      rw [this]
    | cons u us =>
      unfold maxSize
      cases ht : t.size with
      | none => rfl
      | some n =>
        dsimp only
        rw [ih (by
          obtain ⟨x, hx, hs⟩ := h
          rcases List.mem_cons.mp hx with rfl | hx
          · rw [ht] at hs; simp at hs
          · exact ⟨x, hx, hs⟩)]
        simp

mutual
theorem simdizeImpl_plain {P : Plat} (hP : P.WF) : (t : Ty) → t.Plain → t.Vectorizable → ∀ N,
    (t.InnerOk P → ∃ R, simdizeImpl P t N = .ok R ∧ Res P N t R) ∧
    (¬ t.InnerOk P → simdizeImpl P t N = .ub .staticAssert)
  | .scalar k, _, _, N => by
    refine ⟨fun _ => ?_, fun h => absurd (by simp [Ty.InnerOk]) h⟩
    have hw : docWidth P (.scalar k) N = width N (P.native k) := by simp [docWidth, width, Ty.leaves, widest]
    have he : Enabled P (width N (P.native k)) (Ty.scalar k).leaves ↔ P.deduces k (width N (P.native k)) = true := by
      simp [Enabled, Ty.leaves]
    by_cases hd : P.deduces k (width N (P.native k)) = true
    · refine ⟨.simd k (width N (P.native k)), by simp [simdizeImpl, hd], ?_⟩
      unfold Res
      rw [hw, he]
      simp [hd, Ty.size]
    · refine ⟨.scalar k, by simp [simdizeImpl, hd], ?_⟩
      unfold Res
      rw [hw, he]
      simp [hd]
  | .opaque k, _, h, N => by simp [Ty.Vectorizable] at h
  | .simd k n, _, h, N => by simp [Ty.Vectorizable] at h
  | .simdTuple es n, _, h, N => by simp [Ty.Vectorizable] at h
  | .vstruct ms n, _, h, N => by simp [Ty.Vectorizable] at h
  | .spec id args ms s, h, _, N => by simp [Ty.Plain] at h
  | .agg id ms, hpl, hv, N => by
    have hrec : (Ty.agg id ms).recVec = true := (recVec_iff _).mpr hv
    have hv' := hv
    simp only [Ty.Vectorizable] at hv'
    obtain ⟨hne, hV⟩ := hv'
    have hPl : PlainL ms := by simpa [Ty.Plain] using hpl
    have hL := simdizeList_plain hP ms hPl hV
    have hI : (Ty.agg id ms).InnerOk P ↔ ∀ t ∈ ms, Enabled P (widest P t.leaves) t.leaves ∧ t.InnerOk P := by
      rw [← innerOkL_iff]; simp [Ty.InnerOk]
    have hd0 : ∀ t : Ty, docWidth P t 0 = widest P t.leaves := fun t => by simp [docWidth]
    rw [hI]
    constructor
    · intro hin
      obtain ⟨ds, hds, hr0⟩ := (hL 0).1 (fun t ht => (hin t ht).2)
      have hmax : maxSize ds = .ok (widest P (leavesL ms)) := by
        have hl := hr0.length_eq
        rw [maxSize_of (forall₂_sizes hr0 (fun t ht => by rw [hd0]; exact (hin t ht).1))
          (by intro hc; subst hc; simp at hl; exact hne hl)]
        rw [foldr_max_map]
      have hw : docWidth P (.agg id ms) N = width N (widest P (leavesL ms)) := by simp [docWidth, width, Ty.leaves]
      have hw0 : width N (widest P (leavesL ms)) ≠ 0 := by
        unfold width
        split
        · have := widestL_pos hP ms hV hne; omega
        · assumption
      obtain ⟨es, hes, hr⟩ := (hL (width N (widest P (leavesL ms)))).1 (fun t ht => (hin t ht).2)
      have hdw : ∀ t : Ty, docWidth P t (width N (widest P (leavesL ms))) = width N (widest P (leavesL ms)) := fun t => by
        simp [docWidth, hw0]
      have hcond : allSize (width N (widest P (leavesL ms))) es = true ↔
          Enabled P (width N (widest P (leavesL ms))) (leavesL ms) := by
        rw [allSize_iff]
        constructor
        · intro ha k hk
          obtain ⟨t, ht, hkt⟩ := mem_leavesL.mp hk
          obtain ⟨r, hr1, hr2⟩ := forall₂_mem_left hr ht
          by_contra hcon
          have hnot : ¬ Enabled P (docWidth P t (width N (widest P (leavesL ms)))) t.leaves := by
            rw [hdw]; exact fun h => hcon (h k hkt)
          have := hr2.2 hnot
          subst this
          have h1 := ha r hr1
          rw [size_none (vectorizableL_iff.mp hV r ht)] at h1
          simp at h1
        · intro he r hr1
          obtain ⟨t, ht, hr2⟩ := forall₂_mem_right hr hr1
          have := hr2.1 (by rw [hdw]; exact fun k hk => he k (mem_leavesL.mpr ⟨t, ht, hk⟩))
          rw [hdw] at this
          exact this
      have heq : simdizeImpl P (.agg id ms) N =
          if allSize (width N (widest P (leavesL ms))) es then .ok (.simdTuple es (width N (widest P (leavesL ms))))
          else .ok (.agg id ms) := by
        unfold simdizeImpl
        rw [hrec, hds]
        simp only [Bool.not_true, Bool.false_eq_true, if_false, Outcome.bind_ok]
        rw [hmax]
        simp only [Outcome.bind_ok]
        rw [hes]
        simp only [Outcome.bind_ok]
      rw [heq]
      have hlv : (Ty.agg id ms).leaves = leavesL ms := by simp [Ty.leaves]
      unfold Res
      rw [hw, hlv]
      by_cases hc : allSize (width N (widest P (leavesL ms))) es = true
      · refine ⟨_, by rw [if_pos hc], fun _ => rfl, fun hn => absurd (hcond.mp hc) hn⟩
      · refine ⟨_, by rw [if_neg hc], fun he => absurd (hcond.mpr he) hc, fun _ => rfl⟩
    · intro hnot
      unfold simdizeImpl
      rw [hrec]
      simp only [Bool.not_true, Bool.false_eq_true, if_false]
      by_cases hall : ∀ t ∈ ms, t.InnerOk P
      · obtain ⟨ds, hds, hr0⟩ := (hL 0).1 hall
        rw [hds]
        simp only [Outcome.bind_ok]
        have : ∃ t ∈ ms, ¬ Enabled P (docWidth P t 0) t.leaves := by
          by_contra hcon
          push Not at hcon
          exact hnot (fun t ht => ⟨by rw [← hd0]; exact hcon t ht, hall t ht⟩)
        obtain ⟨t, ht, hn⟩ := this
        obtain ⟨r, hr1, hr2⟩ := forall₂_mem_left hr0 ht
        rw [maxSize_not ⟨r, hr1, by rw [hr2.2 hn]; exact size_none (vectorizableL_iff.mp hV t ht)⟩]
        simp
      · push Not at hall
        rw [(hL 0).2 hall]
        simp
theorem simdizeList_plain {P : Plat} (hP : P.WF) : (ts : List Ty) → PlainL ts → VectorizableL ts → ∀ N,
    ((∀ t ∈ ts, t.InnerOk P) → ∃ rs, simdizeList P ts N = .ok rs ∧ List.Forall₂ (Res P N) ts rs) ∧
    ((∃ t ∈ ts, ¬ t.InnerOk P) → simdizeList P ts N = .ub .staticAssert)
  | [], _, _, N => by
    refine ⟨fun _ => ⟨[], by simp [simdizeList], .nil⟩, fun h => by simp at h⟩
  | t :: ts, hpl, hv, N => by
    simp only [PlainL] at hpl
    simp only [VectorizableL] at hv
    have h1 := simdizeImpl_plain hP t hpl.1 hv.1 N
    have h2 := simdizeList_plain hP ts hpl.2 hv.2 N
    constructor
    · intro h
      obtain ⟨R, hR, hres⟩ := h1.1 (h t (by simp))
      obtain ⟨rs, hrs, hf⟩ := h2.1 (fun u hu => h u (by simp [hu]))
      exact ⟨R :: rs, by simp [simdizeList, hR, hrs], .cons hres hf⟩
    · intro h
      by_cases hi : t.InnerOk P
      · obtain ⟨R, hR, -⟩ := h1.1 hi
        have : ∃ u ∈ ts, ¬ u.InnerOk P := by
          obtain ⟨u, hu, hn⟩ := h
          rcases List.mem_cons.mp hu with rfl | hu
          · exact absurd hi hn
          · exact ⟨u, hu, hn⟩
        simp [simdizeList, hR, h2.2 this]
      · simp [simdizeList, h1.2 hi]
end

theorem simdizeList_forall {P : Plat} {ts rs : List Ty} {N : Nat} (h : simdizeList P ts N = .ok rs) :
    List.Forall₂ (fun t r => simdizeImpl P t N = .ok r) ts rs := by
  induction ts generalizing rs with
  | nil =>
    simp only [simdizeList] at h
    injection h with h
    subst h
    exact .nil
  | cons t ts ih =>
    simp only [simdizeList] at h
    obtain ⟨r, hr, h⟩ := bind_ok_inv h
    obtain ⟨rs', hrs, h⟩ := bind_ok_inv h
    injection h with h
    subst h
    exact .cons hr (ih hrs)

mutual
theorem count_pos : (t : Ty) → t.Vectorizable → 0 < t.count
  | .scalar k, _ => by simp [Ty.count]
  | .opaque k, h => by simp [Ty.Vectorizable] at h
  | .simd k n, h => by simp [Ty.Vectorizable] at h
  | .simdTuple es n, h => by simp [Ty.Vectorizable] at h
  | .vstruct ms n, h => by simp [Ty.Vectorizable] at h
  | .agg id ms, h => by
    simp only [Ty.Vectorizable] at h
    simpa [Ty.count] using countL_pos ms h.2 h.1
  | .spec id args ms s, h => by
    simp only [Ty.Vectorizable] at h
    simpa [Ty.count] using countL_pos ms h.2 h.1
theorem countL_pos : (ts : List Ty) → VectorizableL ts → ts ≠ [] → 0 < countL ts
  | [], _, h => absurd rfl h
  | t :: ts, h, _ => by
    simp only [VectorizableL] at h
    have := count_pos t h.1
    simp only [countL]
    omega
end

theorem countL_map (ts : List Ty) : countL ts = (ts.map Ty.count).sum := by
  induction ts with
  | nil => simp [countL]
  | cons t ts ih => simp [countL, ih]

theorem sum_eq_length {ns : List Nat} (h0 : ∀ n ∈ ns, 0 < n) (h : ns.sum = ns.length) : ∀ n ∈ ns, n = 1 := by
  have hle : ∀ ms : List Nat, (∀ n ∈ ms, 0 < n) → ms.length ≤ ms.sum := by
    intro ms
    induction ms with
    | nil => simp
    | cons m ms ih =>
      intro hm
      have h1 := hm m (by simp)
      have h2 := ih (fun n hn => hm n (by simp [hn]))
      simp only [List.length_cons, List.sum_cons]
      omega
  induction ns with
  | nil => simp
  | cons m ms ih =>
    have h1 := h0 m (by simp)
    have h2 := hle ms (fun n hn => h0 n (by simp [hn]))
    simp only [List.length_cons, List.sum_cons] at h
    intro n hn
    rcases List.mem_cons.mp hn with rfl | hn
    · omega
    · exact ih (fun n hn => h0 n (by simp [hn])) (by omega) n hn

theorem flatElement_flat {ms : List Ty} {i : Nat} (h : countL ms = ms.length) : flatElement ms i = ms[i]? := by
  cases ms with
  | nil => simp [flatElement]
  | cons c cs =>
    rw [flatElement, if_pos (by simpa [countL] using h)]

/-- If `flat_element` exists for every flat member of a tuple, the tuple is flat or has one element. -/
theorem flat_of_flatElement {tup : List Ty} (h0 : ∀ t ∈ tup, 0 < t.count)
    (h : ∀ i < countL tup, (flatElement tup i).isSome) :
    tup.length ≤ 1 ∨ ∀ t ∈ tup, t.count = 1 := by
  by_cases hc : countL tup = tup.length
  · right
    intro t ht
    exact sum_eq_length (ns := tup.map Ty.count) (by simpa using h0) (by rw [← countL_map, hc]; simp) _
      (List.mem_map_of_mem ht)
  · left
    cases tup with
    | nil => simp
    | cons c cs =>
      have hpos : 0 < countL (c :: cs) := by
        have := h0 c (by simp)
        simp only [countL]
        omega
      have := h (countL (c :: cs) - 1) (by omega)
      rw [flatElement, if_neg (by simpa [countL] using hc)] at this
      split at this
      · rename_i hcond
        cases cs with
        | nil => simp
        | cons e es =>
          exfalso
          have h1 := h0 e (by simp)
          have h2 := hcond.2
          simp only [countL] at h2
          omega
      · simp at this

theorem structTemplate_flat {P : Plat} {d : Nat} {as tup ms : List Ty} {subst : List (Nat × List Ty)}
    (hU : UniformL ms) (hV : VectorizableL ms) (ht : simdizeList P ms d = .ok tup)
    (h : structTemplate d as tup ms subst = true) : ms.length ≤ 1 ∨ ∀ m ∈ ms, m.count = 1 := by
  unfold structTemplate at h
  simp only [Bool.and_eq_true] at h
  obtain ⟨⟨-, hall⟩, h⟩ := h
  have hl := (simdizeList_sound P ms hU hV ht).1 _ hall
  have hcount : countL tup = countL ms := by rw [countL_leaves, countL_leaves, hl]; simp
  have hf := simdizeList_forall ht
  have hU' : ∀ m ∈ ms, m.Uniform := by
    clear hV ht hl hcount hf h
    induction ms with
    | nil => simp
    | cons m ms ih =>
      simp only [UniformL] at hU
      simp only [List.mem_cons, forall_eq_or_imp]
      exact ⟨hU.1, ih hU.2⟩
  have hV' := vectorizableL_iff.mp hV
  have hone : ∀ m r, m ∈ ms → simdizeImpl P m d = .ok r → r.count = m.count := by
    intro m r hm hr
    rcases simdizeImpl_sound P m (hU' m hm) hr with rfl | hg
    · rfl
    · rw [count_leaves, count_leaves, hg.2.1]; simp
  have hpos : ∀ t ∈ tup, 0 < t.count := by
    intro r hr
    obtain ⟨m, hm, hmr⟩ := forall₂_mem_right hf hr
    rw [hone m r hm hmr]
    exact count_pos m (hV' m hm)
  cases hs : subst.lookup d with
  | none => rw [hs] at h; simp at h
  | some ts =>
    rw [hs] at h
    simp only [Bool.and_eq_true] at h
    have hsome : ∀ i < countL tup, (flatElement tup i).isSome := by
      intro i hi
      have := List.all_eq_true.mp h.2 i (List.mem_range.mpr (by omega))
      revert this
      cases flatElement tup i <;> simp
    rcases flat_of_flatElement hpos hsome with h1 | h1
    · left; rw [hf.length_eq]; exact h1
    · right
      intro m hm
      obtain ⟨r, hr, hmr⟩ := forall₂_mem_left hf hm
      rw [← hone m r hm hmr]
      exact h1 r hr

mutual
theorem plain_uniform : (t : Ty) → t.Plain → t.Uniform
  | .scalar k, _ => by simp [Ty.Uniform]
  | .opaque k, _ => by simp [Ty.Uniform]
  | .simd k n, _ => by simp [Ty.Uniform]
  | .simdTuple es n, _ => by simp [Ty.Uniform]
  | .vstruct ms n, _ => by simp [Ty.Uniform]
  | .agg id ms, h => by
    simp only [Ty.Plain] at h
    simpa [Ty.Uniform] using plainL_uniform ms h
  | .spec id args ms s, h => by simp [Ty.Plain] at h
theorem plainL_uniform : (ts : List Ty) → PlainL ts → UniformL ts
  | [], _ => by simp [UniformL]
  | t :: ts, h => by
    simp only [PlainL] at h
    simp only [UniformL]
    exact ⟨plain_uniform t h.1, plainL_uniform ts h.2⟩
end

mutual
theorem innerOk_of_enabled {P : Plat} (hP : P.WF) (he : ∀ n ls, 0 < n → Enabled P n ls) :
    (t : Ty) → t.Vectorizable → t.InnerOk P
  | .scalar k, _ => by simp [Ty.InnerOk]
  | .opaque k, _ => by simp [Ty.InnerOk]
  | .simd k n, _ => by simp [Ty.InnerOk]
  | .simdTuple es n, _ => by simp [Ty.InnerOk]
  | .vstruct ms n, _ => by simp [Ty.InnerOk]
  | .spec id args ms s, _ => by simp [Ty.InnerOk]
  | .agg id ms, h => by
    simp only [Ty.Vectorizable] at h
    simpa [Ty.InnerOk] using innerOkL_of_enabled hP he ms h.2
theorem innerOkL_of_enabled {P : Plat} (hP : P.WF) (he : ∀ n ls, 0 < n → Enabled P n ls) :
    (ts : List Ty) → VectorizableL ts → InnerOkL P ts
  | [], _ => by simp [InnerOkL]
  | t :: ts, h => by
    simp only [VectorizableL] at h
    simp only [InnerOkL]
    exact ⟨⟨he _ _ (widest_pos hP t h.1), innerOk_of_enabled hP he t h.1⟩, innerOkL_of_enabled hP he ts h.2⟩
end

end Vir.SimdizeTy
