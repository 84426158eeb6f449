import Verif.Props.SimdizeTemplate

/-!
# C60: which class templates keep their member names, for any nesting
-/

namespace Vir.SimdizeTy

theorem flat_members {c : Ty} {ms : List Ty} (h : c.members = some ms) (i : Nat) :
    c.flatElement i = flatElement ms i ∧ c.count = countL ms ∧ c.leaves = leavesL ms := by
  cases c <;> simp only [Ty.members, Option.some.injEq, reduceCtorEq] at h <;> subst h <;>
    simp [Ty.flatElement, Ty.count, Ty.leaves]

theorem flat_nomembers {c : Ty} (h : c.members = none) (i : Nat) :
    c.flatElement i = (if i = 0 then some c else none) ∧ c.count = 1 := by
  cases c <;> simp only [Ty.members, reduceCtorEq] at h <;> simp [Ty.flatElement, Ty.count]

theorem reach_spec {ms ls : List Ty} (h : Reach ms ls) : ls.length = countL ms ∧ 0 < countL ms ∧ ∀ i < countL ms, flatElement ms i = ls[i]? := by
  induction h with
  | flat ms hne h =>
    rw [← countL_leaves] at h
    exact ⟨h.symm, by rw [h]; exact List.length_pos_iff.2 hne, fun i _ => flatElement_flat h⟩
  | wrap c cs ms ls hlt hcs hm _ ih =>
    have e := flat_members hm
    have hz : countL cs = 0 := by rw [countL_leaves, hcs]; rfl
    rw [← count_leaves] at hlt
    simp only [List.length_cons] at hlt
    refine ⟨?_, ?_, fun i hi => ?_⟩
    · rw [countL, hz, ih.1, (e 0).2.1]; rfl
    · rw [countL]; omega
    · have hi' : i < c.count := by rw [countL] at hi; omega
      rw [flatElement, if_neg (by omega), if_pos ⟨by omega, hi'⟩, (e i).1]
      exact ih.2.2 i (by rw [← (e i).2.1]; exact hi')

mutual
theorem reach_of_ty : (c : Ty) → (ms : List Ty) → c.members = some ms → 0 < countL ms → (∀ i < countL ms, (flatElement ms i).isSome) →
    ∃ ls, Reach ms ls
  | .scalar _, _, h, _, _ => by cases h
  | .opaque _, _, h, _, _ => by cases h
  | .simd _ _, _, h, _, _ => by cases h
  | .agg _ es, ms, h, h0, hs => by injection h with h; subst h; exact reach_of es h0 hs
  | .spec _ _ es _, ms, h, h0, hs => by injection h with h; subst h; exact reach_of es h0 hs
  | .simdTuple es _, ms, h, h0, hs => by injection h with h; subst h; exact reach_of es h0 hs
  | .vstruct es _, ms, h, h0, hs => by injection h with h; subst h; exact reach_of es h0 hs
theorem reach_of : (ms : List Ty) → 0 < countL ms → (∀ i < countL ms, (flatElement ms i).isSome) → ∃ ls, Reach ms ls
  | [], h0, _ => by simp [countL] at h0
  | c :: cs, h0, hs => by
    by_cases hc : countL (c :: cs) = (c :: cs).length
    · exact ⟨_, .flat _ (by simp) (by rw [← countL_leaves]; exact hc)⟩
    have hc' : ¬ c.count + countL cs = cs.length + 1 := by simpa [countL] using hc
    have key : ∀ i < countL (c :: cs), cs.length + 1 < c.count + countL cs ∧ i < c.count ∧ (c.flatElement i).isSome := by
      intro i hi
      have := hs i hi
      rw [flatElement, if_neg hc'] at this
      split at this
      · rename_i h; exact ⟨h.1, h.2, this⟩
      · cases this
    have hl := key (countL (c :: cs) - 1) (by omega)
    have hz : countL cs = 0 := by have := hl.2.1; simp only [countL] at this h0; omega
    have hlt : cs.length + 1 < c.count := by omega
    cases hm : c.members with
    | none => have := (flat_nomembers hm 0).2; omega
    | some ms =>
      have e := flat_members hm
      obtain ⟨ls, hr⟩ := reach_of_ty c ms hm (by rw [← (e 0).2.1]; omega) (fun i hi => by
        rw [← (e i).1]
        exact (key i (by rw [countL, hz, (e 0).2.1]; exact hi)).2.2)
      refine ⟨ls, .wrap c cs ms ls (by rw [← count_leaves]; exact hlt) ?_ hm hr⟩
      exact List.length_eq_zero_iff.1 (by rw [← countL_leaves]; exact hz)
end

mutual
theorem first_of_ty : (c : Ty) → (ms : List Ty) → c.members = some ms → (x : Ty) → flatElement ms 0 = some x → First ms x
  | .scalar _, _, h, _, _ => by cases h
  | .opaque _, _, h, _, _ => by cases h
  | .simd _ _, _, h, _, _ => by cases h
  | .agg _ es, ms, h, x, hs => by injection h with h; subst h; exact first_of es x hs
  | .spec _ _ es _, ms, h, x, hs => by injection h with h; subst h; exact first_of es x hs
  | .simdTuple es _, ms, h, x, hs => by injection h with h; subst h; exact first_of es x hs
  | .vstruct es _, ms, h, x, hs => by injection h with h; subst h; exact first_of es x hs
theorem first_of : (ms : List Ty) → (x : Ty) → flatElement ms 0 = some x → First ms x
  | [], _, h => by simp [flatElement] at h
  | c :: cs, x, h => by
    rw [flatElement] at h
    split at h
    · rename_i hc
      have : c = x := by simpa using h
      subst this
      exact .flat c cs (by rw [← countL_leaves]; simpa [countL] using hc)
    · split at h
      · rename_i hlt
        have hl : (c :: cs).length < (leavesL (c :: cs)).length := by rw [← countL_leaves]; simpa [countL] using hlt.1
        cases hm : c.members with
        | none =>
          rw [(flat_nomembers hm 0).1] at h
          have : c = x := by simpa using h
          subst this
          exact .leaf c cs hl hm
        | some ms =>
          rw [(flat_members hm 0).1] at h
          exact .down c x cs ms hl hm (first_of_ty c ms hm x h)
      · cases h
end

theorem first_spec {ms : List Ty} {x : Ty} (h : First ms x) : flatElement ms 0 = some x ∧ 0 < countL ms := by
  induction h with
  | flat c cs h =>
    rw [← countL_leaves] at h
    exact ⟨by rw [flatElement_flat h]; rfl, by rw [h]; simp⟩
  | down c x cs ms hl hm _ ih =>
    rw [← countL_leaves] at hl
    have e := flat_members hm 0
    have hp : 0 < c.count := by rw [e.2.1]; exact ih.2
    simp only [countL, List.length_cons] at hl
    refine ⟨?_, by rw [countL]; omega⟩
    rw [flatElement, if_neg (by omega), if_pos ⟨by omega, hp⟩, e.1]
    exact ih.1
  | leaf c cs hl hm =>
    rw [← countL_leaves] at hl
    have e := flat_nomembers hm 0
    simp only [countL, List.length_cons] at hl
    refine ⟨?_, by rw [countL]; omega⟩
    rw [flatElement, if_neg (by omega), if_pos ⟨by omega, by omega⟩, e.1]
    rfl

theorem simdizeList_iff {P : Plat} {ts rs : List Ty} {N : Nat} :
    simdizeList P ts N = .ok rs ↔ List.Forall₂ (fun t r => simdize P t N = .ok r) ts rs := by
  refine ⟨simdizeList_forall, fun h => ?_⟩
  induction h with
  | nil => rfl
  | cons h _ ih =>
    rw [simdizeList, show simdizeImpl P _ N = _ from h, ih]; rfl

theorem consistent_iff {n : Nat} {tup ts : List Ty} (hn : 0 < n) (h1 : countL tup = n) (h2 : countL ts = n) :
    consistent n tup ts = true ↔
      ∃ ls ls', Reach tup ls ∧ Reach ts ls' ∧ ls.map Ty.identity = ls'.map Ty.identity := by
  unfold consistent
  rw [List.all_eq_true]
  constructor
  · intro h
    have key : ∀ i < n, ∃ l r, flatElement tup i = some l ∧ flatElement ts i = some r ∧ l.same r = true := by
      intro i hi
      have := h i (by simpa using hi)
      revert this
      cases flatElement tup i <;> cases flatElement ts i <;> simp
    obtain ⟨ls, hr⟩ := reach_of tup (by omega) (fun i hi => by
      obtain ⟨l, r, h, -⟩ := key i (by omega); rw [h]; rfl)
    obtain ⟨ls', hr'⟩ := reach_of ts (by omega) (fun i hi => by
      obtain ⟨l, r, -, h, -⟩ := key i (by omega); rw [h]; rfl)
    have s := reach_spec hr
    have s' := reach_spec hr'
    refine ⟨ls, ls', hr, hr', List.ext_getElem (by simp; omega) fun i hi hi' => ?_⟩
    simp only [List.length_map] at hi hi'
    obtain ⟨l, r, hl, hrr, hs⟩ := key i (by omega)
    rw [s.2.2 i (by omega), List.getElem?_eq_getElem hi] at hl
    rw [s'.2.2 i (by omega), List.getElem?_eq_getElem hi'] at hrr
    injection hl with hl
    injection hrr with hrr
    rw [List.getElem_map, List.getElem_map, hl, hrr]
    exact (same_iff l r).1 hs
  · rintro ⟨ls, ls', hr, hr', he⟩ i hi
    have hi : i < n := by simpa using hi
    have s := reach_spec hr
    have s' := reach_spec hr'
    have g : i < ls.length := by omega
    have g' : i < ls'.length := by omega
    rw [s.2.2 i (by omega), s'.2.2 i (by omega), List.getElem?_eq_getElem g, List.getElem?_eq_getElem g']
    dsimp only
    rw [same_iff]
    have := congrArg (·[i]?) he
    simpa [g, g'] using this

/-- **C60 (exact, any nesting).** `simdize<Tpl<args...>, N>` derives from `Tpl<simdize<args, w>...>` with the members `base`, and so keeps
the names of the members, exactly if: all leaves are scalars; `w` is the documented width; the members can be simdized with their own
default widths, and for both `w` and the default width `d` of the whole, members and arguments can be simdized with that width; `Tpl`
instantiates at `d` to a struct with as many members, whose members can be named one by one (`Reach`) and agree one by one with those
of the tuple of simdized members; and `Tpl` instantiates at `w`, such that the first member is data-parallel. -/
theorem simdize_template_iff (P : Plat) (id : Nat) (args ms : List Ty) (subst : List (Nat × List Ty))
    (hu : (Ty.spec id args ms subst).Uniform) (N : Nat) (base : List Ty) (w : Nat) :
    let t := Ty.spec id args ms subst
    let d := docWidth P t 0
    simdize P t N = .ok (.vstruct base w) ↔
      t.Vectorizable ∧ w = docWidth P t N ∧
      (∃ ds, List.Forall₂ (fun m r => simdize P m 0 = .ok r) ms ds ∧ ∀ r ∈ ds, r.size.isSome) ∧
      (∃ as, AllSimdize P d d args as) ∧ (∃ as, AllSimdize P w w args as) ∧ (∃ es, AllSimdize P w w ms es) ∧
      (∃ tup ts ls ls', AllSimdize P d d ms tup ∧ subst.lookup d = some ts ∧ ts.length = ms.length ∧
        Reach tup ls ∧ Reach ts ls' ∧ ls.map Ty.identity = ls'.map Ty.identity) ∧
      subst.lookup w = some base ∧ ∃ x, First base x ∧ x.size.isSome := by
  intro t d
  have hu' := hu
  simp only [Ty.Uniform] at hu'
  obtain ⟨hU, hS⟩ := hu'
  constructor
  · intro h
    have h' : simdizeImpl P t N = .ok (.vstruct base w) := h
    simp only [t] at h'
    unfold simdizeImpl at h'
    split at h'
    · cases h'
    rename_i hv
    have hv : t.Vectorizable := (recVec_iff _).mp (by simpa using hv)
    obtain ⟨ds, hds, h'⟩ := bind_ok_inv h'
    obtain ⟨d', hd, h'⟩ := bind_ok_inv h'
    obtain ⟨as, has, h'⟩ := bind_ok_inv h'
    obtain ⟨tup, htup, h'⟩ := bind_ok_inv h'
    have hV : VectorizableL ms := by have := hv; simp only [t, Ty.Vectorizable] at this; exact this.2
    have hms : ms ≠ [] := by have := hv; simp only [t, Ty.Vectorizable] at this; exact this.1
    obtain ⟨-, ns, h1, h2⟩ := maxSize_ok hd
    have hdw : d' = widest P t.leaves := by
      rw [h2, (simdizeList_sound P ms hU hV hds).2 rfl ns h1]; simp only [t, Ty.leaves]
    have hdd : d' = d := by rw [hdw]; simp [d, docWidth]
    subst hdd
    have hww : width N d = docWidth P t N := (docWidth_eq P hdw).symm
    dsimp only at h'
    split at h'
    · rename_i hst
      obtain ⟨aw, haw, h'⟩ := bind_ok_inv h'
      split at h'
      · rename_i haa
        split at h'
        · cases h'
        · rename_i base' hb
          obtain ⟨es, hes, h'⟩ := bind_ok_inv h'
          split at h'
          · rename_i hfin
            injection h' with h'
            injection h' with e1 e2
            subst e1
            rw [e2] at haw haa hb hes hfin hww
            rw [Bool.and_eq_true] at hfin
            unfold structTemplate at hst
            simp only [Bool.and_eq_true] at hst
            obtain ⟨⟨hs1, hs2⟩, hst⟩ := hst
            refine ⟨hv, hww, ⟨ds, simdizeList_iff.1 hds, ?_⟩, ⟨as, simdizeList_iff.1 has, allSize_iff.1 hs1⟩,
              ⟨aw, simdizeList_iff.1 haw, allSize_iff.1 haa⟩, ⟨es, simdizeList_iff.1 hes, allSize_iff.1 hfin.1⟩, ?_, hb, ?_⟩
            · intro r hr
              have : r.size ∈ ds.map Ty.size := List.mem_map_of_mem hr
              rw [h1] at this
              obtain ⟨n, -, hn⟩ := List.mem_map.1 this
              rw [← hn]; rfl
            · cases hl : subst.lookup d with
              | none => rw [hl] at hst; cases hst
              | some ts =>
                rw [hl] at hst
                simp only [Bool.and_eq_true, beq_iff_eq] at hst
                have c1 : countL tup = countL ms := by
                  rw [countL_leaves, countL_leaves, (simdizeList_sound P ms hU hV htup).1 _ hs2]; simp
                have c2 : countL ts = countL ms := by
                  rw [countL_leaves, countL_leaves, hS _ _ hl]; simp
                obtain ⟨ls, ls', r1, r2, r3⟩ := (consistent_iff (countL_pos ms hV hms) c1 c2).1 hst.2
                exact ⟨tup, ts, ls, ls', ⟨simdizeList_iff.1 htup, allSize_iff.1 hs2⟩, rfl, hst.1, r1, r2, r3⟩
            · obtain ⟨n, hn⟩ := Option.isSome_iff_exists.1 hfin.2
              obtain ⟨x, hx, hn⟩ := Option.bind_eq_some_iff.1 hn
              exact ⟨x, first_of _ x hx, by rw [hn]; rfl⟩
          · cases h'
      · cases h'
    · obtain ⟨es, hes, h'⟩ := bind_ok_inv h'
      split at h' <;> cases h'
  · rintro ⟨hv, hw, ⟨ds, hds, hdsz⟩, ⟨as, has, hasz⟩, ⟨aw, haw, hawz⟩, ⟨es, hes, hesz⟩,
      ⟨tup, ts, ls, ls', ⟨htup, htz⟩, hl, hlen, r1, r2, r3⟩, hb, x, hx, hxs⟩
    have hV : VectorizableL ms := by have := hv; simp only [t, Ty.Vectorizable] at this; exact this.2
    have hms : ms ≠ [] := by have := hv; simp only [t, Ty.Vectorizable] at this; exact this.1
    have hds' := simdizeList_iff.2 hds
    have hns : ∃ ns : List Nat, ds.map Ty.size = ns.map some := by
      clear hds hds'
      induction ds with
      | nil => exact ⟨[], rfl⟩
      | cons r rs ih =>
        obtain ⟨ns, h⟩ := ih fun r hr => hdsz r (by simp [hr])
        obtain ⟨n, hn⟩ := Option.isSome_iff_exists.1 (hdsz r (by simp))
        exact ⟨n :: ns, by simp [hn, h]⟩
    obtain ⟨ns, hns⟩ := hns
    have hne : ds ≠ [] := by
      intro hc
      have := hds.length_eq
      rw [hc] at this
      exact hms (List.length_eq_zero_iff.1 this)
    have hd : maxSize ds = .ok d := by
      rw [maxSize_of hns hne, (simdizeList_sound P ms hU hV hds').2 rfl ns hns]
      simp [d, t, docWidth, Ty.leaves]
    have hww : width N d = w := by
      rw [hw, docWidth_eq P (d := d)]; simp [d, docWidth]
    have c1 : countL tup = countL ms := by
      rw [countL_leaves, countL_leaves, (simdizeList_sound P ms hU hV (simdizeList_iff.2 htup)).1 _ (allSize_iff.2 htz)]; simp
    have c2 : countL ts = countL ms := by
      rw [countL_leaves, countL_leaves, hS _ _ hl]; simp
    have hcons := (consistent_iff (countL_pos ms hV hms) c1 c2).2 ⟨ls, ls', r1, r2, r3⟩
    have hst : structTemplate d as tup ms subst = true := by
      unfold structTemplate
      rw [allSize_iff.2 hasz, allSize_iff.2 htz, hl]
      simp [hlen, hcons]
    have e1 : t.recVec = true := (recVec_iff t).2 hv
    obtain ⟨n, hn⟩ := Option.isSome_iff_exists.1 hxs
    unfold simdize
    simp only [t] at e1 ⊢
    rw [simdizeImpl, e1]
    simp only [Bool.not_true, Bool.false_eq_true, if_false, hds', Outcome.bind_ok, hd, simdizeList_iff.2 has,
      simdizeList_iff.2 htup, hst, if_true, hww, simdizeList_iff.2 haw, allSize_iff.2 hawz, hb, simdizeList_iff.2 hes,
      allSize_iff.2 hesz, (first_spec hx).1, Option.bind_some, hn, Option.isSome_some, Bool.and_self]

/-- The members of the `j`-fold wrapper instantiated with `simd<k, n>`. -/
def boxMembers (k n : Nat) : Nat → List Ty
  | 0 => [.simd k n, .simd k n]
  | j + 1 => [.spec j [.simd k n] (boxMembers k n j) []]

/-- `template <class T> struct Box0 { T x, y; };`, `template <class T> struct Box1 { Box0<T> b; };`, and so on, as `Box_j<k>`, with the
instantiations for the widths in `ns`. -/
def box (k : Nat) (ns : List Nat) : Nat → Ty
  | 0 => .spec 0 [.scalar k] [.scalar k, .scalar k] (ns.map fun n => (n, boxMembers k n 0))
  | j + 1 => .spec (j + 1) [.scalar k] [box k ns j] (ns.map fun n => (n, boxMembers k n (j + 1)))

private theorem lookup_map (ns : List Nat) (f : Nat → List Ty) (n : Nat) :
    (ns.map fun n => (n, f n)).lookup n = if n ∈ ns then some (f n) else none := by
  induction ns with
  | nil => rfl
  | cons m ns ih =>
    simp only [List.map_cons, List.lookup_cons, ih, List.mem_cons]
    by_cases h : n = m
    · subst h; simp
    · have : (n == m) = false := by simpa using h
      simp [this, h]

private theorem box_leaves (k : Nat) (ns : List Nat) (j : Nat) : (box k ns j).leaves = [.scalar k, .scalar k] := by
  induction j with
  | zero => simp [box, Ty.leaves, leavesL]
  | succ j ih => simp [box, Ty.leaves, leavesL, ih]

private theorem boxMembers_leaves (k n : Nat) (j : Nat) : leavesL (boxMembers k n j) = [.simd k n, .simd k n] := by
  induction j with
  | zero => simp [boxMembers, Ty.leaves, leavesL]
  | succ j ih => simp [boxMembers, Ty.leaves, leavesL, ih]

private theorem box_vectorizable (k : Nat) (ns : List Nat) (j : Nat) : (box k ns j).Vectorizable := by
  induction j with
  | zero => simp [box, Ty.Vectorizable, VectorizableL]
  | succ j ih => simp [box, Ty.Vectorizable, VectorizableL, ih]

private theorem box_uniform (k : Nat) (ns : List Nat) (j : Nat) : (box k ns j).Uniform := by
  induction j with
  | zero =>
    simp only [box, Ty.Uniform, UniformL, lookup_map]
    refine ⟨by simp, fun n ts h => ?_⟩
    split at h
    · injection h with h; subst h; simp [boxMembers, leavesL, Ty.leaves, Leaf.vec]
    · cases h
  | succ j ih =>
    simp only [box, Ty.Uniform, UniformL, lookup_map]
    refine ⟨by simp [ih], fun n ts h => ?_⟩
    split at h
    · injection h with h; subst h
      rw [boxMembers_leaves]
      simp [leavesL, box_leaves, Leaf.vec]
    · cases h

private theorem reach_box (k n : Nat) : (j : Nat) → Reach (boxMembers k n j) [.simd k n, .simd k n]
  | 0 => .flat _ (by simp [boxMembers]) (by simp [boxMembers, leavesL, Ty.leaves])
  | j + 1 => .wrap _ _ (boxMembers k n j) _ (by simp [Ty.leaves, boxMembers_leaves]) (by simp [leavesL]) rfl (reach_box k n j)

private theorem first_box (k n : Nat) : (j : Nat) → First (boxMembers k n j) (.simd k n)
  | 0 => .flat _ _ (by simp [leavesL, Ty.leaves])
  | j + 1 => .down _ _ _ (boxMembers k n j) (by simp [leavesL, Ty.leaves, boxMembers_leaves]) rfl (first_box k n j)

/-- **C60 holds for wrappers with one member, to any depth.** If `T` has a native `simd` and one of the width asked for, and the
template can be instantiated for these widths, the names of the members are kept. -/
theorem simdize_wrapped_template (P : Plat) (hP : P.WF) (k : Nat) (ns : List Nat) (hn : P.native k ∈ ns) (j N : Nat)
    (hw : width N (P.native k) ∈ ns) (he : P.deduces k (width N (P.native k)) = true) :
    simdize P (box k ns j) N = .ok (.vstruct (boxMembers k (width N (P.native k)) j) (width N (P.native k))) := by
  have dpos := hP.native_pos k
  have scal : ∀ N, P.deduces k (width N (P.native k)) = true →
      simdize P (.scalar k) N = .ok (.simd k (width N (P.native k))) := by
    intro N h
    rw [simdize, simdizeImpl]
    simp [h]
  have dw : ∀ j N, docWidth P (box k ns j) N = width N (P.native k) := by
    intro j N
    rw [docWidth, box_leaves]
    simp [widest, width]
  have w0 : width 0 (P.native k) = P.native k := rfl
  have wp : ∀ n, 0 < n → ∀ d, width n d = n := fun n hn d => by unfold width; rw [if_neg (by omega)]
  have wpos : ∀ N, 0 < width N (P.native k) := fun N => by unfold width; split <;> omega
  induction j generalizing N with
  | zero =>
    have arg : ∀ n, 0 < n → P.deduces k n = true → AllSimdize P n n [.scalar k] [.simd k n] := by
      intro n hn h
      have := scal n (by rw [wp n hn]; exact h)
      rw [wp n hn] at this
      exact ⟨.cons this .nil, by simp [Ty.size]⟩
    have mem : ∀ n, 0 < n → P.deduces k n = true → AllSimdize P n n [.scalar k, .scalar k] [.simd k n, .simd k n] := by
      intro n hn h
      have := scal n (by rw [wp n hn]; exact h)
      rw [wp n hn] at this
      exact ⟨.cons this (.cons this .nil), by simp [Ty.size]⟩
    have hd : docWidth P (box k ns 0) 0 = P.native k := dw 0 0
    refine (simdize_template_iff P _ _ _ _ (box_uniform k ns 0) N _ _).2 ?_
    change _ ∧ _ = docWidth P (box k ns 0) N ∧ _ ∧ _
    have e : docWidth P (Ty.spec 0 [.scalar k] [.scalar k, .scalar k] (ns.map fun n => (n, boxMembers k n 0))) 0 = P.native k := hd
    rw [e]
    have s0 := scal 0 (hP.native_enabled k)
    refine ⟨box_vectorizable k ns 0, (dw 0 N).symm, ⟨_, .cons s0 (.cons s0 .nil), by simp [Ty.size]⟩,
      ⟨_, arg _ dpos (hP.native_enabled k)⟩, ⟨_, arg _ (wpos N) he⟩, ⟨_, mem _ (wpos N) he⟩,
      ⟨_, boxMembers k (P.native k) 0, _, _, mem _ dpos (hP.native_enabled k), ?_, rfl, ?_, reach_box k _ 0, rfl⟩,
      ?_, ⟨_, first_box k _ 0, rfl⟩⟩
    · rw [lookup_map, if_pos hn]
    · exact reach_box k _ 0
    · rw [lookup_map, if_pos hw]
  | succ j ih =>
    have arg : ∀ n, 0 < n → P.deduces k n = true → AllSimdize P n n [.scalar k] [.simd k n] := by
      intro n hn h
      have := scal n (by rw [wp n hn]; exact h)
      rw [wp n hn] at this
      exact ⟨.cons this .nil, by simp [Ty.size]⟩
    have mem : ∀ n, 0 < n → n ∈ ns → P.deduces k n = true → AllSimdize P n n [box k ns j] [.vstruct (boxMembers k n j) n] := by
      intro n hn hns h
      have := ih n (by rw [wp n hn]; exact hns) (by rw [wp n hn]; exact h)
      rw [wp n hn] at this
      exact ⟨.cons this .nil, by simp [Ty.size]⟩
    have e : docWidth P (Ty.spec (j + 1) [.scalar k] [box k ns j] (ns.map fun n => (n, boxMembers k n (j + 1)))) 0 = P.native k :=
      dw (j + 1) 0
    refine (simdize_template_iff P _ _ _ _ (box_uniform k ns (j + 1)) N _ _).2 ?_
    change _ ∧ _ = docWidth P (box k ns (j + 1)) N ∧ _ ∧ _
    rw [e]
    have s0 := ih 0 hn (hP.native_enabled k)
    refine ⟨box_vectorizable k ns (j + 1), (dw (j + 1) N).symm, ⟨_, .cons s0 .nil, by simp [Ty.size]⟩,
      ⟨_, arg _ dpos (hP.native_enabled k)⟩, ⟨_, arg _ (wpos N) he⟩, ⟨_, mem _ (wpos N) hw he⟩,
      ⟨_, boxMembers k (P.native k) (j + 1), _, _, mem _ dpos hn (hP.native_enabled k), ?_, rfl, ?_, reach_box k _ (j + 1), rfl⟩,
      ?_, ⟨_, first_box k _ (j + 1), rfl⟩⟩
    · rw [lookup_map, if_pos hn]
    · exact .wrap _ _ (boxMembers k _ j) _ (by simp [Ty.leaves, boxMembers_leaves]) (by simp [leavesL]) rfl (reach_box k _ j)
    · rw [lookup_map, if_pos hw]

/-! ### the theorems are about something -/

/-- Six levels deep. -/
example : simdize (fallback stdBytes 16) (box 4 [4, 8] 6) 8 = .ok (.vstruct [.spec 5 [.simd 4 8] (boxMembers 4 8 5) []] 8) := rfl

/-- Two members, one of which has two leaves: not reachable. -/
example : ¬ ∃ ls, Reach [.agg 10 [.simd 4 4, .simd 4 4], .simd 4 4] ls := by
  rintro ⟨ls, h⟩
  cases h with
  | flat _ _ h => simp [leavesL, Ty.leaves] at h
  | wrap _ _ _ _ _ h => simp [leavesL, Ty.leaves] at h

/-! ## The theorems applied to concrete data -/

private theorem fallbackPos (k : Nat) : 0 < (fallback stdBytes 16).native k := by
  have hb : 0 < stdBytes k ∧ stdBytes k ≤ 8 := by unfold stdBytes; split <;> omega
  simp only [fallback]
  split
  · omega
  · exact Nat.div_pos (by omega) hb.1

example := simdize_wrapped_template (fallback stdBytes 16) ⟨fun k => fallbackPos k, fun k => by simpa [fallback] using fallbackPos k⟩ 4 [4, 8] (by decide) 6 8
  (by decide) (by decide)

end Vir.SimdizeTy
