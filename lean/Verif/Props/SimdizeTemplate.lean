import Verif.Props.SimdizeType

/-!
# C60: class templates whose members have the types of template parameters
-/

namespace Vir.SimdizeTy

private theorem list_scalars (P : Plat) (ks : List Nat) (N : Nat) : simdizeList P (ks.map Ty.scalar) N =
    .ok (ks.map fun k => if P.deduces k (width N (P.native k)) then .simd k (width N (P.native k)) else .scalar k) := by
  induction ks with
  | nil => rfl
  | cons k ks ih =>
    rw [List.map_cons, simdizeList, ih, simdizeImpl]
    split <;> rename_i h <;> simp [h]

private theorem allSize_scalars (P : Plat) (ks : List Nat) (w : Nat) (hw : 0 < w) :
    allSize w (ks.map fun k => if P.deduces k (width w (P.native k)) then .simd k (width w (P.native k)) else .scalar k) = true ↔
      ∀ k ∈ ks, P.deduces k w = true := by
  rw [allSize_iff]
  have e : ∀ k, width w (P.native k) = w := fun k => by unfold width; rw [if_neg (by omega)]
  simp only [List.mem_map, forall_exists_index, and_imp, forall_apply_eq_imp_iff₂, e]
  constructor
  · intro h k hk
    have := h k hk
    split at this
    · assumption
    · cases this
  · intro h k hk
    rw [if_pos (h k hk)]; rfl

private theorem scalars_enabled (P : Plat) (ks : List Nat) (w : Nat) (hw : 0 < w) (h : ∀ k ∈ ks, P.deduces k w = true) :
    (ks.map fun k => if P.deduces k (width w (P.native k)) then Ty.simd k (width w (P.native k)) else .scalar k) =
      ks.map (Ty.simd · w) := by
  refine List.map_congr_left fun k hk => ?_
  have e : width w (P.native k) = w := by unfold width; rw [if_neg (by omega)]
  rw [e, if_pos (h k hk)]

private theorem count_simds (ks : List Nat) (n : Nat) : countL (ks.map (Ty.simd · n)) = ks.length := by
  induction ks with
  | nil => rfl
  | cons k ks ih => simp [countL, Ty.count, ih, Nat.add_comm]

private theorem count_scalars (ks : List Nat) : countL (ks.map Ty.scalar) = ks.length := by
  induction ks with
  | nil => rfl
  | cons k ks ih => simp [countL, Ty.count, ih, Nat.add_comm]

private theorem leaves_scalars (ks : List Nat) : leavesL (ks.map Ty.scalar) = ks.map Leaf.scalar := by
  induction ks with
  | nil => rfl
  | cons k ks ih => rw [List.map_cons, leavesL, ih, Ty.leaves]; rfl

private theorem recVec_scalars (ks : List Nat) : recVecL (ks.map Ty.scalar) = true := by
  induction ks with
  | nil => rfl
  | cons k ks ih => rw [List.map_cons, recVecL, ih, Ty.recVec]; rfl

private theorem flat_simds (ks : List Nat) (n i : Nat) (hi : i < ks.length) :
    flatElement (ks.map (Ty.simd · n)) i = some (.simd ks[i] n) := by
  rw [flatElement_flat (by rw [count_simds]; simp)]
  simp [hi]

private theorem consistent_simds (ks : List Nat) (n : Nat) :
    consistent ks.length (ks.map (Ty.simd · n)) (ks.map (Ty.simd · n)) = true := by
  unfold consistent
  rw [List.all_eq_true]
  intro i hi
  have hi : i < ks.length := by simpa using hi
  rw [flat_simds ks n i hi]
  simp [Ty.same]

private theorem max_scalars (P : Plat) (hP : P.WF) (ks : List Nat) (hks : ks ≠ []) :
    maxSize (ks.map fun k => if P.deduces k (width 0 (P.native k)) then .simd k (width 0 (P.native k)) else .scalar k) =
      .ok (widest P (ks.map Leaf.scalar)) := by
  rw [maxSize_of (ns := ks.map P.native)]
  · congr 1
    clear hks
    induction ks with
    | nil => rfl
    | cons k ks ih => rw [List.map_cons, List.foldr_cons, ih]; rfl
  · rw [List.map_map, List.map_map]
    refine List.map_congr_left fun k _ => ?_
    simp [width, hP.native_enabled k, Ty.size]
  · simpa using hks

private theorem flat_unfold (P : Plat) (hP : P.WF) (id : Nat) (as ks : List Nat) (hks : ks ≠ []) (subst : List (Nat × List Ty)) (N : Nat) :
    let t := Ty.spec id (as.map .scalar) (ks.map .scalar) subst
    let d := docWidth P t 0
    let w := docWidth P t N
    0 < d ∧ 0 < w ∧
    simdize P t N =
      (if structTemplate d (as.map fun k => if P.deduces k (width d (P.native k)) then .simd k (width d (P.native k)) else .scalar k)
        (ks.map fun k => if P.deduces k (width d (P.native k)) then .simd k (width d (P.native k)) else .scalar k)
        (ks.map .scalar) subst then
        if allSize w (as.map fun k => if P.deduces k (width w (P.native k)) then .simd k (width w (P.native k)) else .scalar k) then
          match subst.lookup w with
          | none => .ok t
          | some base =>
            if allSize w (ks.map fun k => if P.deduces k (width w (P.native k)) then .simd k (width w (P.native k)) else .scalar k) &&
                ((flatElement base 0).bind Ty.size).isSome then .ok (.vstruct base w)
            else .ub .staticAssert
        else .ok t
      else
        if allSize w (ks.map fun k => if P.deduces k (width w (P.native k)) then .simd k (width w (P.native k)) else .scalar k) then
          .ok (.simdTuple (ks.map fun k => if P.deduces k (width w (P.native k)) then .simd k (width w (P.native k)) else .scalar k) w)
        else .ok t) := by
  intro t d w
  have hd : d = widest P (ks.map Leaf.scalar) := by
    simp only [d, t, docWidth, if_pos, Ty.leaves, leaves_scalars]
  have hw : w = width N d := by
    rw [hd]; simp only [w, t, docWidth, width, Ty.leaves, leaves_scalars]
  have hv : t.Vectorizable := by
    rw [← recVec_iff]
    simp only [t, Ty.recVec, recVec_scalars, List.isEmpty_map]
    cases ks with
    | nil => exact absurd rfl hks
    | cons k ks => rfl
  have dpos : 0 < d := by
    have := widest_pos hP t hv
    rw [hd]
    simpa only [t, Ty.leaves, leaves_scalars] using this
  have wpos : 0 < w := by rw [hw]; unfold width; split <;> omega
  refine ⟨dpos, wpos, ?_⟩
  have e1 : t.recVec = true := (recVec_iff t).2 hv
  unfold simdize
  simp only [t] at e1 ⊢
  rw [simdizeImpl, e1]
  simp only [Bool.not_true, Bool.false_eq_true, if_false, list_scalars, Outcome.bind_ok, max_scalars P hP ks hks, ← hd, ← hw]
  rfl

/-- All of the scalars have a `simd` of width `n`, and the template can be instantiated with these `simd`s. -/
def Instantiable (P : Plat) (as : List Nat) (subst : List (Nat × List Ty)) (n : Nat) : Prop :=
  (∀ k ∈ as, P.deduces k n = true) ∧ (subst.lookup n).isSome

/-- **C60 (exact result for flat templates).** `Tpl<as...>` has one or more members `ks`, each of the type of a template argument, and
wherever `Tpl<simd<as, n>...>` can be instantiated, its members are `simd<ks, n>`. `d` is the default width and `w` the width asked for.
`simdize<Tpl<as...>, N>` derives from `Tpl<simd<as, w>...>`, and so keeps the names of the members, exactly if that can be instantiated
and also `Tpl<simd<as, d>...>`. If the default width fails, the result is a tuple or unchanged, if only `w` fails it is unchanged. -/
theorem simdize_flat_template (P : Plat) (hP : P.WF) (id : Nat) (as ks : List Nat) (hks : ks ≠ []) (hka : ∀ k ∈ ks, k ∈ as)
    (subst : List (Nat × List Ty)) (hs : ∀ n ts, subst.lookup n = some ts → ts = ks.map (Ty.simd · n)) (N : Nat) :
    let t := Ty.spec id (as.map .scalar) (ks.map .scalar) subst
    let d := docWidth P t 0
    let w := docWidth P t N
    (Instantiable P as subst d → Instantiable P as subst w → simdize P t N = .ok (.vstruct (ks.map (Ty.simd · w)) w)) ∧
    (Instantiable P as subst d → ¬ Instantiable P as subst w → simdize P t N = .ok t) ∧
    (¬ Instantiable P as subst d → (∀ k ∈ ks, P.deduces k w = true) → simdize P t N = .ok (.simdTuple (ks.map (Ty.simd · w)) w)) ∧
    (¬ Instantiable P as subst d → ¬ (∀ k ∈ ks, P.deduces k w = true) → simdize P t N = .ok t) := by
  intro t d w
  have dpos := (flat_unfold P hP id as ks hks subst N).1
  have wpos := (flat_unfold P hP id as ks hks subst N).2.1
  have key : structTemplate d (as.map fun k => if P.deduces k (width d (P.native k)) then .simd k (width d (P.native k)) else .scalar k)
      (ks.map fun k => if P.deduces k (width d (P.native k)) then .simd k (width d (P.native k)) else .scalar k)
      (ks.map .scalar) subst = true ↔ Instantiable P as subst d := by
    unfold structTemplate Instantiable
    rw [Bool.and_eq_true, Bool.and_eq_true, allSize_scalars P as d dpos, allSize_scalars P ks d dpos]
    cases hl : subst.lookup d with
    | none => simp
    | some ts =>
      rw [hs _ _ hl]
      simp only [Option.isSome_some, and_true]
      constructor
      · exact fun h => h.1.1
      · intro h
        refine ⟨⟨h, fun k hk => h k (hka k hk)⟩, ?_⟩
        rw [scalars_enabled P ks d dpos fun k hk => h k (hka k hk), count_scalars, consistent_simds]
        simp
  have unf := (flat_unfold P hP id as ks hks subst N).2.2
  have tail (hA : Instantiable P as subst w) : ∃ base, subst.lookup w = some base ∧ base = ks.map (Ty.simd · w) := by
    obtain ⟨base, hb⟩ := Option.isSome_iff_exists.1 hA.2
    exact ⟨base, hb, hs _ _ hb⟩
  refine ⟨fun hD hA => ?_, fun hD hA => ?_, fun hD hK => ?_, fun hD hK => ?_⟩
  · rw [unf, if_pos (key.2 hD), if_pos ((allSize_scalars P as w wpos).2 hA.1)]
    obtain ⟨base, hb, rfl⟩ := tail hA
    rw [hb]
    dsimp only
    rw [if_pos]
    rw [(allSize_scalars P ks w wpos).2 fun k hk => hA.1 k (hka k hk),
      flat_simds ks w 0 (List.length_pos_iff.2 hks)]
    rfl
  · rw [unf, if_pos (key.2 hD)]
    by_cases h : ∀ k ∈ as, P.deduces k w = true
    · rw [if_pos ((allSize_scalars P as w wpos).2 h)]
      cases hl : subst.lookup w with
      | none => rfl
      | some base => exact absurd ⟨h, by rw [hl]; rfl⟩ hA
    · rw [if_neg (fun hc => h ((allSize_scalars P as w wpos).1 hc))]
  · rw [unf, if_neg (fun hc => hD (key.1 hc)), if_pos ((allSize_scalars P ks w wpos).2 hK), scalars_enabled P ks w wpos hK]
  · rw [unf, if_neg (fun hc => hD (key.1 hc)), if_neg (fun hc => hK ((allSize_scalars P ks w wpos).1 hc))]

/-- The identity of a type without the members that follow from it: aggregates are named, specializations are named and have
arguments. -/
def Ty.identity : Ty → Ty
  | .agg id _ => .agg id []
  | .spec id as _ _ => .spec id (identityL as) [] []
  | .simdTuple es n => .simdTuple (identityL es) n
  | .vstruct ms n => .vstruct (identityL ms) n
  | t => t
where
  /-- Pointwise. -/
  identityL : List Ty → List Ty
    | [] => []
    | t :: ts => t.identity :: identityL ts

mutual
/-- **C60 (`std::same_as`).** Two types are the same exactly if they have the same identity. -/
theorem same_iff : (t u : Ty) → (t.same u = true ↔ t.identity = u.identity)
  | .scalar a, u => by cases u <;> simp [Ty.same, Ty.identity]
  | .opaque a, u => by cases u <;> simp [Ty.same, Ty.identity]
  | .agg a ms, u => by cases u <;> simp [Ty.same, Ty.identity]
  | .spec a xs ms ss, u => by
    cases u <;> simp [Ty.same, Ty.identity]
    intro _
    exact sameL_iff xs _
  | .simd a n, u => by cases u <;> simp [Ty.same, Ty.identity]
  | .simdTuple xs n, u => by
    cases u <;> simp [Ty.same, Ty.identity]
    rw [sameL_iff xs]
    exact and_comm
  | .vstruct xs n, u => by
    cases u <;> simp [Ty.same, Ty.identity]
    rw [sameL_iff xs]
    exact and_comm
/-- Pointwise. -/
theorem sameL_iff : (ts us : List Ty) → (sameL ts us = true ↔ Ty.identity.identityL ts = Ty.identity.identityL us)
  | [], us => by cases us <;> simp [sameL, Ty.identity.identityL]
  | t :: ts, us => by
    cases us with
    | nil => simp [sameL, Ty.identity.identityL]
    | cons u us => rw [sameL, Bool.and_eq_true, same_iff t, sameL_iff ts]; simp [Ty.identity.identityL]
end

private theorem count_flat (ts : List Ty) (h : ∀ x ∈ ts, x.members = none) : countL ts = ts.length := by
  induction ts with
  | nil => rfl
  | cons x ts ih =>
    have hx := h x (by simp)
    rw [countL, ih fun y hy => h y (by simp [hy]), List.length_cons]
    cases x <;> simp [Ty.members] at hx <;> simp [Ty.count] <;> omega

private theorem same_simd {k n : Nat} {x : Ty} (h : (Ty.simd k n).same x = true) : x = .simd k n := by
  cases x <;> simp [Ty.same] at h
  rw [h.1, h.2]

private theorem inconsistent (ks : List Nat) (d : Nat) (ts : List Ty) (hl : ts.length = ks.length) (hm : ∀ x ∈ ts, x.members = none)
    (hne : ts ≠ ks.map (Ty.simd · d)) : consistent ks.length (ks.map (Ty.simd · d)) ts = false := by
  refine Bool.eq_false_iff.2 fun h => hne ?_
  unfold consistent at h
  rw [List.all_eq_true] at h
  refine List.ext_getElem (by simpa using hl) fun i h1 h2 => ?_
  have hi : i < ks.length := by omega
  have := h i (by simpa using hi)
  rw [flat_simds ks d i hi] at this
  rw [flatElement_flat (count_flat ts hm), List.getElem?_eq_getElem h1] at this
  simpa using same_simd this

/-- **C60 (templates with members that do not depend on the parameters).** If the members of `Tpl<simd<as, d>...>` for the default width `d`
are not `simd<ks, d>`, one by one, for instance because a member keeps its type, then `simdize<Tpl<as...>, N>` never derives from a
specialization of `Tpl`: it is a tuple of simds, or the type itself if there are no simds of that width. -/
theorem simdize_inconsistent_template (P : Plat) (hP : P.WF) (id : Nat) (as ks : List Nat) (hks : ks ≠ []) (subst : List (Nat × List Ty))
    (N : Nat) (hs : ∀ ts, subst.lookup (docWidth P (.spec id (as.map .scalar) (ks.map .scalar) subst) 0) = some ts →
      (∀ x ∈ ts, x.members = none) ∧ ts ≠ ks.map (Ty.simd · (docWidth P (.spec id (as.map .scalar) (ks.map .scalar) subst) 0))) :
    let t := Ty.spec id (as.map .scalar) (ks.map .scalar) subst
    let w := docWidth P t N
    ((∀ k ∈ ks, P.deduces k w = true) → simdize P t N = .ok (.simdTuple (ks.map (Ty.simd · w)) w)) ∧
    (¬ (∀ k ∈ ks, P.deduces k w = true) → simdize P t N = .ok t) := by
  intro t w
  obtain ⟨dpos, wpos, unf⟩ := flat_unfold P hP id as ks hks subst N
  have hn : structTemplate (docWidth P t 0) (as.map fun k => if P.deduces k (width (docWidth P t 0) (P.native k)) then
        .simd k (width (docWidth P t 0) (P.native k)) else .scalar k)
      (ks.map fun k => if P.deduces k (width (docWidth P t 0) (P.native k)) then
        .simd k (width (docWidth P t 0) (P.native k)) else .scalar k)
      (ks.map .scalar) subst = false := by
    refine Bool.eq_false_iff.2 fun h => ?_
    unfold structTemplate at h
    rw [Bool.and_eq_true, Bool.and_eq_true, allSize_scalars P ks _ dpos] at h
    obtain ⟨⟨-, hK⟩, h⟩ := h
    cases hl : subst.lookup (docWidth P t 0) with
    | none => rw [hl] at h; cases h
    | some ts =>
      rw [hl] at h
      obtain ⟨hm, hne⟩ := hs ts hl
      simp only [Bool.and_eq_true, beq_iff_eq, List.length_map] at h
      rw [scalars_enabled P ks _ dpos hK, count_scalars, inconsistent ks _ ts h.1 hm hne] at h
      cases h.2
  constructor
  · intro hK
    rw [unf, if_neg (by rw [hn]; decide), if_pos ((allSize_scalars P ks w wpos).2 hK), scalars_enabled P ks w wpos hK]
  · intro hK
    rw [unf, if_neg (by rw [hn]; decide), if_neg (fun hc => hK ((allSize_scalars P ks w wpos).1 hc))]

/-- **C60 for the fallback `simd`**, where every width works: a flat template that can be instantiated with simds keeps its names. -/
theorem simdize_flat_template_fallback (bytes : Nat → Nat) (vec : Nat) (hb : ∀ k, 0 < bytes k ∧ (bytes k ≤ 8 → bytes k ≤ vec))
    (id : Nat) (as ks : List Nat) (hks : ks ≠ []) (hka : ∀ k ∈ ks, k ∈ as) (subst : List (Nat × List Ty))
    (hs : ∀ n ts, subst.lookup n = some ts → ts = ks.map (Ty.simd · n)) (N : Nat)
    (h0 : (subst.lookup (docWidth (fallback bytes vec) (.spec id (as.map .scalar) (ks.map .scalar) subst) 0)).isSome)
    (hN : (subst.lookup (docWidth (fallback bytes vec) (.spec id (as.map .scalar) (ks.map .scalar) subst) N)).isSome) :
    ∃ w, simdize (fallback bytes vec) (.spec id (as.map .scalar) (ks.map .scalar) subst) N =
      .ok (.vstruct (ks.map (Ty.simd · w)) w) ∧
      w = docWidth (fallback bytes vec) (.spec id (as.map .scalar) (ks.map .scalar) subst) N := by
  have hpos : ∀ k, 0 < (fallback bytes vec).native k := by
    intro k
    simp only [fallback]
    split
    · omega
    · exact Nat.div_pos ((hb k).2 (by omega)) (hb k).1
  have hP : (fallback bytes vec).WF := ⟨hpos, fun k => by simpa [fallback] using hpos k⟩
  have hv : (Ty.spec id (as.map .scalar) (ks.map .scalar) subst).Vectorizable := by
    rw [← recVec_iff]
    simp only [Ty.recVec, recVec_scalars, List.isEmpty_map]
    cases ks with
    | nil => exact absurd rfl hks
    | cons k ks => rfl
  have hw : ∀ N, 0 < docWidth (fallback bytes vec) (.spec id (as.map .scalar) (ks.map .scalar) subst) N := by
    intro N
    unfold docWidth
    split
    · exact widest_pos hP _ hv
    · omega
  have := (simdize_flat_template _ hP id as ks hks hka subst hs N).1 ⟨fun k _ => by simpa [fallback] using hw 0, h0⟩
    ⟨fun k _ => by simpa [fallback] using hw N, hN⟩
  exact ⟨_, this, rfl⟩

/-- `Pair<signed char, double>` with a member of each type, and its instantiation for eight lanes. -/
def exPair : Ty := .spec 3 [.scalar 1, .scalar 8] [.scalar 1, .scalar 8] [(8, [.simd 1 8, .simd 8 8])]

/-- **C60 is false of the code also for flat templates**: with libstdc++ and AVX-512 `simdize<Pair<signed char, double>, 8>` does not
derive from `Pair<simd<signed char, 8>, simd<double, 8>>`, only because the default width of 64 has no `simd<double>`. -/
theorem simdize_template_default_width_wrong :
    Instantiable (libstdcxx stdBytes 64) [1, 8] [(8, [.simd 1 8, .simd 8 8])] 8 ∧
    simdize (libstdcxx stdBytes 64) exPair 8 = .ok (.simdTuple [.simd 1 8, .simd 8 8] 8) := by
  refine ⟨⟨?_, rfl⟩, rfl⟩
  intro k hk
  simp only [List.mem_cons, List.not_mem_nil, or_false] at hk
  rcases hk with rfl | rfl <;> decide

/-! ### the theorems are about something -/

/-- `template <class T> struct S { T a; int b; };` -/
example : simdize (fallback stdBytes 16) (.spec 5 [.scalar 4] [.scalar 4, .scalar 4] [(4, [.simd 4 4, .scalar 4])]) 4 =
    .ok (.simdTuple [.simd 4 4, .simd 4 4] 4) := rfl

example : (libstdcxx stdBytes 16).deduces 4 32 = true ∧ (libstdcxx stdBytes 16).deduces 4 33 = false ∧
    (libstdcxx stdBytes 64).deduces 1 64 = true := by decide

/-- The default width of 16 works, the width asked for does not: the type stays as it is. -/
example : simdize (libstdcxx stdBytes 64) (.spec 4 [.scalar 4, .scalar 8] [.scalar 4] [(16, [.simd 4 16])]) 64 =
      .ok (.spec 4 [.scalar 4, .scalar 8] [.scalar 4] [(16, [.simd 4 16])]) := rfl

example : simdize (fallback stdBytes 16) (.spec 1 [.scalar 4] [.scalar 4, .scalar 4] [(4, [.simd 4 4, .simd 4 4]),
    (8, [.simd 4 8, .simd 4 8])]) 8 = .ok (.vstruct [.simd 4 8, .simd 4 8] 8) := by
  have hs : ∀ n ts, List.lookup n [(4, [Ty.simd 4 4, .simd 4 4]), (8, [.simd 4 8, .simd 4 8])] = some ts →
      ts = [4, 4].map (Ty.simd · n) := by
    intro n ts
    by_cases h4 : n = 4
    · subst h4; intro h; injection h with h; exact h.symm
    by_cases h8 : n = 8
    · subst h8; intro h; injection h with h; exact h.symm
    have e : ∀ m, n ≠ m → (n == m) = false := fun m hm => by simpa using hm
    simp [List.lookup, e 4 h4, e 8 h8]
  obtain ⟨w, h, hw⟩ := simdize_flat_template_fallback stdBytes 16
    (fun k => by unfold stdBytes; split <;> omega) 1 [4] [4, 4] (by decide) (by decide) _ hs 8 rfl rfl
  subst hw
  exact h

/-! ## The theorems applied to concrete data -/

private theorem fallbackPos (k : Nat) : 0 < (fallback stdBytes 16).native k := by
  have hb : 0 < stdBytes k ∧ stdBytes k ≤ 8 := by unfold stdBytes; split <;> omega
  simp only [fallback]
  split
  · omega
  · exact Nat.div_pos (by omega) hb.1

private theorem fallbackWf : (fallback stdBytes 16).WF := ⟨fallbackPos, fun k => by simpa [fallback] using fallbackPos k⟩

example := simdize_flat_template _ fallbackWf 1 [4] [4, 4] (by decide) (by decide) [(4, [4, 4].map (Ty.simd · 4))]
  (fun n ts h => by
    by_cases h4 : n = 4
    · subst h4; injection h with h; exact h.symm
    · have e : (n == 4) = false := by simpa using h4
      simp [List.lookup, e] at h) 8

example := simdize_inconsistent_template _ fallbackWf 5 [4] [4, 4] (by decide) [(4, [.simd 4 4, .scalar 4])] 8
  (fun ts h => by
    have : docWidth (fallback stdBytes 16) (.spec 5 ([4].map .scalar) ([4, 4].map .scalar) [(4, [.simd 4 4, .scalar 4])]) 0 = 4 := rfl
    rw [this] at h ⊢
    injection h with h
    subst h
    exact ⟨by intro x hx; simp at hx; rcases hx with rfl | rfl <;> rfl, by simp⟩)

end Vir.SimdizeTy
