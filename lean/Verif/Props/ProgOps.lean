import Verif.Lemmas.ProgOps
import Verif.Props.PartialOps

/-!
# C96: the algorithms with simd programs as callables
-/

namespace Vir
open Spec SimdProg ForEach Transform IntTy

variable {ty : IntTy} {ts : List IntTy} {nm out : Nat} {p : Stmt}

/-- **C96.** `transform` with a simd program as operation (masked assignments, loops until no lane is active, several types): if the program
on numbers ends for the elements with index `i`, for all `i`, the call is defined, returns the end of the output range, makes element
`i` of the output what the program on numbers computes from the elements with index `i`, and changes nothing else. Neither width,
address, policy, the order of evaluation nor the elements that happen to share a simd matter. -/
theorem transform_prog {t : TEnv} {mem : List Int} (ok : RangesOk t mem) (wf : t.e.WF) (hce : t.e.constEval = false)
    (hpt : t.e.strictPtr = false) (hf : t.e.Fits t.n) (hr : ReachesAlignment t.e t.n)
    (ha : t.e.pol.assumeMatchingSize = true → t.e.size ∣ t.n) {ord : Nat → List Nat} (hord : ∀ k, (ord k).Perm (List.range k))
    (hm : ∀ i < t.n, ∀ x ∈ elementsAt t mem i, ty.Has x) (hts : VarTypes (List.replicate t.ins.length ty ++ ts))
    (hp : Typed (List.replicate t.ins.length ty ++ ts) nm p) (hout : (List.replicate t.ins.length ty ++ ts)[out]? = some ty)
    (hd : ∀ i < t.n, ∃ v, ProgValue ts.length nm out p (elementsAt t mem i) v) :
    ∃ ys N, (∀ n, N ≤ n → transformP t ord (progOp ts.length nm out p n) mem =
        .ok ((t.n : Int), mem.take t.out ++ ys ++ mem.drop (t.out + t.n))) ∧ ys.length = t.n ∧
      ∀ (i : Nat) (v : Int), ys[i]? = some v → ProgValue ts.length nm out p (elementsAt t mem i) v := by
  have hout' : out < t.ins.length + ts.length := by
    have := (List.getElem?_eq_some_iff.1 hout).1
    simpa using this
  have hlanes := limOp_lanes (F := fun n => progOp ts.length nm out p n) (progOp_value hts hp hout')
  have hp' := (reaches_iff wf).1 hr
  have htr := fun op => transformG_trace wf hce hf hp' (by simp [hpt]) ha (chunksP t ord op) mem
  have hspan := Transform.groupsOf_span hp'
  have hrun := runGroups_chunksP ok hm hlanes hord (Transform.groupsOf t.e t.n) [] (groupsOf_aligned wf hp') (by simp [hspan])
    (by intro i v h; simp at h)
  simp only [List.length_nil, hspan, writeAt_nil, Nat.zero_add] at hrun
  rcases hrun with ⟨zs, h1, h2, h3⟩ | ⟨j, h1, h2, u, h3⟩
  · obtain ⟨N, hN⟩ := runGroups_lim (chunksP_lim (limOp_lim _) t ord) (Transform.groupsOf t.e t.n) 0 mem _ h1
    refine ⟨zs, N, fun n hn => ?_, h2, fun i v h => by simpa using h3 i v h⟩
    unfold transformP
    rw [htr, show runGroups _ _ _ _ = _ from hN n hn, Outcome.bind_ok, writeAt, h2]
  · obtain ⟨v, hv⟩ := hd j h1
    exact absurd hv (h2 v)

/-- **C96.** The same during constant evaluation. -/
theorem transform_prog_const {t : TEnv} {mem : List Int} (ok : RangesOk t mem) (hs : 0 < t.e.size) (hce : t.e.constEval = true)
    (hpt : t.e.strictPtr = true → t.n % t.e.size + 1 = t.e.size) (ha : t.e.pol.assumeMatchingSize = true → t.e.size ∣ t.n)
    {ord : Nat → List Nat} (hord : ∀ k, (ord k).Perm (List.range k)) (hm : ∀ i < t.n, ∀ x ∈ elementsAt t mem i, ty.Has x)
    (hts : VarTypes (List.replicate t.ins.length ty ++ ts)) (hp : Typed (List.replicate t.ins.length ty ++ ts) nm p)
    (hout : (List.replicate t.ins.length ty ++ ts)[out]? = some ty)
    (hd : ∀ i < t.n, ∃ v, ProgValue ts.length nm out p (elementsAt t mem i) v) :
    ∃ ys N, (∀ n, N ≤ n → transformP t ord (progOp ts.length nm out p n) mem =
        .ok ((t.n : Int), mem.take t.out ++ ys ++ mem.drop (t.out + t.n))) ∧ ys.length = t.n ∧
      ∀ (i : Nat) (v : Int), ys[i]? = some v → ProgValue ts.length nm out p (elementsAt t mem i) v := by
  have hout' : out < t.ins.length + ts.length := by
    have := (List.getElem?_eq_some_iff.1 hout).1
    simpa using this
  have hlanes := limOp_lanes (F := fun n => progOp ts.length nm out p n) (progOp_value hts hp hout')
  have htr := fun op => transformG_const hs hce hpt ha (chunksP t ord op) mem
  have hspan := constGroupsOf_span t.e t.n
  have hrun := runGroups_chunksP ok hm hlanes hord (constGroupsOf t.e t.n) []
    (groupsAligned_false (fun g hg => by
      simp only [constGroupsOf, List.mem_append, List.mem_replicate] at hg
      rcases hg with ⟨_, rfl⟩ | ⟨_, rfl⟩ <;> rfl) _) (by simp [hspan]) (by intro i v h; simp at h)
  simp only [List.length_nil, hspan, writeAt_nil, Nat.zero_add] at hrun
  rcases hrun with ⟨zs, h1, h2, h3⟩ | ⟨j, h1, h2, u, h3⟩
  · obtain ⟨N, hN⟩ := runGroups_lim (chunksP_lim (limOp_lim _) t ord) (constGroupsOf t.e t.n) 0 mem _ h1
    refine ⟨zs, N, fun n hn => ?_, h2, fun i v h => by simpa using h3 i v h⟩
    unfold transformP
    rw [htr, show runGroups _ _ _ _ = _ from hN n hn, Outcome.bind_ok, writeAt, h2]
  · obtain ⟨v, hv⟩ := hd j h1
    exact absurd hv (h2 v)

/-- **C96.** `for_each` with a callable that runs a simd program on its argument: every element is replaced by what the program on
numbers makes of it. -/
theorem forEach_prog {e : Env} (wf : e.WF) (hce : e.constEval = false) (hpt : e.strictPtr = false) (xs : List Int)
    (hf : e.Fits xs.length) (hr : ReachesAlignment e xs.length) (ha : e.pol.assumeMatchingSize = true → e.size ∣ xs.length)
    (hx : LanesOf ty xs) (hts : VarTypes (ty :: ts)) (hp : Typed (ty :: ts) nm p) (hd : ∀ x ∈ xs, ∃ v, ProgValue ts.length nm 0 p [x] v) :
    ∃ ys N, (∀ n, N ≤ n → forEachP e (progOp ts.length nm 0 p n) xs = .ok ys) ∧
      AllRelated (fun x v => ProgValue ts.length nm 0 p [x] v) xs ys := by
  have hlanes := limOp_lanes (F := fun n => progOp ts.length nm 0 p n)
    (progOp_value (m := 1) (out := 0) (ty := ty) (ts := ts) hts hp (by omega))
  have hp' := (reaches_iff wf).1 hr
  have htr := fun op => forEachG_trace wf hce hf hp' (by simp [hpt]) ha (invokeP e op) xs
  have hspan := Transform.groupsOf_span hp'
  have hrun := runGroups_invokeP (e := e) hlanes (Transform.groupsOf e xs.length) [] xs hx (groupsOf_aligned wf hp') (by omega)
  simp only [List.nil_append, List.length_nil, hspan, List.take_length, List.drop_length, List.append_nil] at hrun
  rcases hrun with ⟨ys, h1, h2⟩ | ⟨x, h1, h2, u, h3⟩
  · obtain ⟨N, hN⟩ := runGroups_lim (invokeP_lim (limOp_lim _) e) (Transform.groupsOf e xs.length) 0 xs _ h1
    refine ⟨ys, N, fun n hn => ?_, h2⟩
    unfold forEachP
    rw [htr]
    exact hN n hn
  · obtain ⟨v, hv⟩ := hd x h1
    exact absurd hv (h2 v)

/-- **C96.** Conversely, whatever `transform` with a simd program ends with: the elements of the output are what the statements of the program
make of the elements with the same index. If everything in loop bodies is masked with the mask of the loop (`idle` false) this is the
program on numbers; in particular, if it does not end or is undefined for some elements, the call does not end or is undefined. -/
theorem transform_prog_sound {t : TEnv} {mem mem' : List Int} (ok : RangesOk t mem) (wf : t.e.WF) (hce : t.e.constEval = false)
    (hpt : t.e.strictPtr = false) (hf : t.e.Fits t.n) (hr : ReachesAlignment t.e t.n)
    (ha : t.e.pol.assumeMatchingSize = true → t.e.size ∣ t.n) {ord : Nat → List Nat} (hord : ∀ k, (ord k).Perm (List.range k))
    (hm : ∀ i < t.n, ∀ x ∈ elementsAt t mem i, ty.Has x) (hts : VarTypes (List.replicate t.ins.length ty ++ ts))
    (hp : Typed (List.replicate t.ins.length ty ++ ts) nm p) {idle : Prop} (hi : idle ∨ MaskedLoops p) {n : Nat} {k : Int}
    (h : transformP t ord (progOp ts.length nm out p n) mem = .ok (k, mem')) :
    k = t.n ∧ ∃ ys, mem' = mem.take t.out ++ ys ++ mem.drop (t.out + t.n) ∧ ys.length = t.n ∧
      ∀ (i : Nat) (v : Int), ys[i]? = some v → StepsValue idle ts.length nm out p (elementsAt t mem i) v := by
  have hlanes := forceOp_lanes (progOp_sound (out := out) hts hp hi n)
  have hp' := (reaches_iff wf).1 hr
  have htr := fun op => transformG_trace wf hce hf hp' (by simp [hpt]) ha (chunksP t ord op) mem
  have hspan := Transform.groupsOf_span hp'
  have hrun := runGroups_chunksP ok hm hlanes hord (Transform.groupsOf t.e t.n) [] (groupsOf_aligned wf hp') (by simp [hspan])
    (by intro i v h; simp at h)
  simp only [List.length_nil, hspan, writeAt_nil, Nat.zero_add] at hrun
  unfold transformP at h
  rw [htr] at h
  cases hg : runGroups (Transform.atPos (chunksP t ord (progOp ts.length nm out p n))) 0 (groupsOf t.e t.n) mem with
  | ub u => rw [hg] at h; cases h
  | trap => rw [hg] at h; cases h
  | ok s =>
    rw [hg, Outcome.bind_ok] at h
    cases h
    obtain ⟨N, hN⟩ := runGroups_lim (chunksP_lim (forceOp_lim (StepsValue idle ts.length nm out p)) t ord) (Transform.groupsOf t.e t.n) 0 mem _ hg
    have := hN N (Nat.le_refl _)
    simp only [] at this
    rcases hrun with ⟨zs, h1, h2, h3⟩ | ⟨j, h1, h2, u, h3⟩
    · rw [h1] at this
      cases this
      refine ⟨rfl, zs, by rw [writeAt, h2], h2, fun i v h => by simpa using h3 i v h⟩
    · rw [h3] at this
      cases this

/-- **C96.** The same for `for_each`. -/
theorem forEach_prog_sound {e : Env} (wf : e.WF) (hce : e.constEval = false) (hpt : e.strictPtr = false) (xs : List Int)
    (hf : e.Fits xs.length) (hr : ReachesAlignment e xs.length) (ha : e.pol.assumeMatchingSize = true → e.size ∣ xs.length)
    (hx : LanesOf ty xs) (hts : VarTypes (ty :: ts)) (hp : Typed (ty :: ts) nm p) {idle : Prop} (hi : idle ∨ MaskedLoops p) {n : Nat}
    {ys : List Int} (h : forEachP e (progOp ts.length nm 0 p n) xs = .ok ys) :
    AllRelated (fun x v => StepsValue idle ts.length nm 0 p [x] v) xs ys := by
  have hlanes := forceOp_lanes (progOp_sound (m := 1) (out := 0) (ty := ty) (ts := ts) hts hp hi n)
  have hp' := (reaches_iff wf).1 hr
  have htr := fun op => forEachG_trace wf hce hf hp' (by simp [hpt]) ha (invokeP e op) xs
  have hspan := Transform.groupsOf_span hp'
  have hrun := runGroups_invokeP (e := e) hlanes (Transform.groupsOf e xs.length) [] xs hx (groupsOf_aligned wf hp') (by omega)
  simp only [List.nil_append, List.length_nil, hspan, List.take_length, List.drop_length, List.append_nil] at hrun
  unfold forEachP at h
  rw [htr] at h
  obtain ⟨N, hN⟩ := runGroups_lim (invokeP_lim (forceOp_lim (StepsValue idle ts.length nm 0 p)) e) (Transform.groupsOf e xs.length) 0 xs _ h
  have := hN N (Nat.le_refl _)
  simp only [] at this
  rcases hrun with ⟨zs, h1, h2⟩ | ⟨j, h1, h2, u, h3⟩
  · rw [h1] at this
    cases this
    exact h2
  · rw [h3] at this
    cases this

/-- What the program computes from given elements is unique. -/
theorem progValue_unique {xs : List Int} (hts : VarTypes (List.replicate xs.length ty ++ ts))
    (hp : Typed (List.replicate xs.length ty ++ ts) nm p) (hx : ∀ x ∈ xs, ty.Has x) {v v' : Int}
    (h : ProgValue ts.length nm out p xs v) (h' : ProgValue ts.length nm out p xs v') : v = v' := by
  obtain ⟨l, h1, h2⟩ := h
  obtain ⟨l', h1', h2'⟩ := h'
  have hs := start_shape (m := xs.length) (w := 1) (ty := ty) (ts := ts) (args := xs.map fun x => [x]) (by simp) (fun a h => by
    obtain ⟨x, hx', rfl⟩ := List.mem_map.1 h
    exact ⟨rfl, fun y hy => by rw [List.mem_singleton.1 hy]; exact hx x hx'⟩) nm
  have hl := start_lane (w := 1) (args := xs.map fun x => [x]) (nt := ts.length) (nm := nm) (i := 0) (by decide)
  have he : (xs.map fun x => [x]).filterMap (·[0]?) = xs := by
    rw [List.filterMap_map]
    exact List.filterMap_some
  rw [he] at hl
  have := prog_unique hts p hp _ hs (i := 0) (by decide) (by rw [hl]; exact h1) (by rw [hl]; exact h1')
  subst this
  rw [h2] at h2'
  exact Option.some.inj h2'

/-- **C96 (a whole algorithm).** `transform` with Euclid's algorithm on simds writes the greatest common divisors of the elements of two
ranges, whatever the policy, width and address are and although the lanes of a simd need different numbers of iterations. -/
theorem transform_gcd {t : TEnv} {mem : List Int} (ok : RangesOk t mem) (wf : t.e.WF) (hce : t.e.constEval = false)
    (hpt : t.e.strictPtr = false) (hf : t.e.Fits t.n) (hr : ReachesAlignment t.e t.n)
    (ha : t.e.pol.assumeMatchingSize = true → t.e.size ∣ t.n) {ord : Nat → List Nat} (hord : ∀ k, (ord k).Perm (List.range k))
    {a b : Nat} (hins : t.ins = [a, b]) (hv : ValidTy ty) (hb : 1 < ty.bits) (xs ys : Nat → Nat)
    (hx : ∀ i < t.n, mem[a + i]? = some (xs i : Int) ∧ ty.Has (xs i)) (hy : ∀ i < t.n, mem[b + i]? = some (ys i : Int) ∧ ty.Has (ys i)) :
    ∃ N, ∀ n, N ≤ n → transformP t ord (progOp 1 1 0 (euclid ty) n) mem =
      .ok ((t.n : Int), mem.take t.out ++ (List.range t.n).map (fun i => (Nat.gcd (xs i) (ys i) : Int)) ++ mem.drop (t.out + t.n)) := by
  have hel : ∀ i < t.n, elementsAt t mem i = [(xs i : Int), (ys i : Int)] := by
    intro i hi
    unfold elementsAt
    rw [hins]
    simp [(hx i hi).1, (hy i hi).1]
  have hts : VarTypes (List.replicate t.ins.length ty ++ [ty]) := by
    intro t' h
    have : t' = ty := by
      rcases List.mem_append.1 h with h | h
      · exact List.eq_of_mem_replicate h
      · exact List.mem_singleton.1 h
    subst this
    exact ⟨hv, hb⟩
  have hp : Typed (List.replicate t.ins.length ty ++ [ty]) 1 (euclid ty) := by
    rw [hins]
    simp [euclid, euclidBody, Typed, MkTyped, ExTyped, hv]
  have hm : ∀ i < t.n, ∀ x ∈ elementsAt t mem i, ty.Has x := by
    intro i hi x h
    rw [hel i hi] at h
    simp only [List.mem_cons, List.not_mem_nil, or_false] at h
    rcases h with rfl | rfl
    · exact (hx i hi).2
    · exact (hy i hi).2
  have hval : ∀ i < t.n, ProgValue [ty].length 1 0 (euclid ty) (elementsAt t mem i) (Nat.gcd (xs i) (ys i) : Int) := by
    intro i hi
    rw [hel i hi]
    obtain ⟨c, h⟩ := euclid_lane (t := ty) has_zero (xs i) (ys i) 0 false
    exact ⟨_, h, rfl⟩
  obtain ⟨zs, N, h1, h2, h3⟩ := transform_prog ok wf hce hpt hf hr ha hord hm hts hp (out := 0) (by rw [hins]; rfl)
    fun i hi => ⟨_, hval i hi⟩
  have hz : zs = (List.range t.n).map fun i => (Nat.gcd (xs i) (ys i) : Int) := by
    apply List.ext_getElem (by simp [h2])
    intro i g1 g2
    rw [List.getElem_map, List.getElem_range]
    have hi : i < t.n := by omega
    have hlen : (elementsAt t mem i).length = t.ins.length := by rw [hel i hi, hins]; rfl
    exact progValue_unique (by rw [hlen]; exact hts) (by rw [hlen]; exact hp) (hm i hi) (h3 i _ (List.getElem?_eq_getElem g1)) (hval i hi)
  rw [hz] at h1
  exact ⟨N, h1⟩

/-! ### the theorems are about something -/

private theorem wf11 : (exampleT [.unrollBy 2]).e.WF := libstdcxx_wf _ (by decide) ⟨2, rfl⟩ rfl (by decide) ⟨[.unrollBy 2], by decide⟩ (by decide)
private theorem reach11 : ReachesAlignment (exampleT [.unrollBy 2]).e (exampleT [.unrollBy 2]).n := (reaches_iff wf11).2 (by decide)
private theorem valid32 : ValidTy i32 := by unfold ValidTy; decide

/-- Eleven pairs `(i + 1, i + 12)`: gcds 1, 1, …, 11 of ranges which partly share simds. -/
example : ∃ N, ∀ n, N ≤ n → transformP (exampleT [.unrollBy 2]) (fun k => (List.range k).reverse) (progOp 1 1 0 (euclid i32) n) exprMem =
    .ok (11, [1, 1, 1, 1, 1, 1, 1, 1, 1, 1, 11] ++ exprMem.drop 11) := by
  obtain ⟨N, h⟩ := transform_gcd (t := exampleT [.unrollBy 2]) (mem := exprMem) (a := 1) (b := 12) ⟨by decide, by decide, by decide, by decide⟩ wf11 rfl rfl
    (by unfold Env.Fits; decide) reach11 (by decide) (fun k => List.reverse_perm (List.range k)) rfl valid32 (by decide) (fun i => i + 1) (fun i => i + 12) (by decide) (by decide)
  exact ⟨N, fun n hn => (h n hn).trans (by decide +kernel)⟩

-- the same run, executed
example : transformP (exampleT [.unrollBy 2]) (fun k => (List.range k).reverse) (progOp 1 1 0 (euclid i32) 10) exprMem =
    .ok (11, [1, 1, 1, 1, 1, 1, 1, 1, 1, 1, 11] ++ exprMem.drop 11) := by decide +kernel

example {n : Nat} {k : Int} {mem' : List Int}
    (h : transformP (exampleT [.unrollBy 2]) (fun k => (List.range k).reverse) (progOp 1 1 0 (euclid i32) n) exprMem = .ok (k, mem')) :=
  transform_prog_sound (ty := i32) (ts := [i32]) (idle := False) (p := euclid i32) (t := exampleT [.unrollBy 2]) (mem := exprMem)
    ⟨by decide, by decide, by decide, by decide⟩ wf11 rfl rfl (by unfold Env.Fits; decide) reach11 (by decide) (fun k => List.reverse_perm (List.range k)) (by decide)
    (fun t' h => by
      have : t' = i32 := by simpa [exampleT] using h
      subst this
      exact ⟨valid32, by decide⟩)
    (by simp [exampleT, euclid, euclidBody, Typed, MkTyped, ExTyped, valid32]) (Or.inr ⟨trivial, 0, rfl, by simp [euclidBody, MaskedBy]⟩) h

/-- `where(x < 0, x) = 0`. -/
def Spec.clampNeg (t : IntTy) : Stmt := .whereAssign (.cmp .lt t (.var 0) (.lit t 0)) 0 (.lit t 0)

theorem clampNeg_value {t : IntTy} (x : Int) : ProgValue 0 0 0 (clampNeg t) [x] (max x 0) := by
  have h0 : ∀ {xs : List Int}, ExValue xs (.lit t 0) 0 := .lit ⟨has_zero, by simp⟩
  by_cases h : x < 0
  · rw [Int.max_eq_right (by omega)]
    exact ⟨_, .where_true (l := ([x], [])) (.cmp_true (.var rfl) h0 h) h0, rfl⟩
  · rw [Int.max_eq_left (by omega)]
    exact ⟨_, .where_false (l := ([x], [])) (.cmp_false (.var rfl) h0 h) h0, rfl⟩

example := forEach_prog (e := (exampleT [.unrollBy 2]).e) (ty := i32) (ts := []) (nm := 0) (p := clampNeg i32) wf11 rfl rfl
  [3, -1, 4, -1, 5, -9, 2, -6, 5, -3, 5] (by unfold Env.Fits; decide) reach11 (by decide) (by unfold LanesOf; decide)
  (fun t' h => by
    have : t' = i32 := by simpa using h
    subst this
    exact ⟨valid32, by decide⟩)
  (by simp [clampNeg, Typed, MkTyped, ExTyped, valid32]) fun x _ => ⟨_, clampNeg_value x⟩
example : forEachP (exampleT [.unrollBy 2]).e (progOp 0 0 0 (clampNeg i32) 0) [3, -1, 4, -1, 5, -9, 2, -6, 5, -3, 5] =
    .ok [3, 0, 4, 0, 5, 0, 2, 0, 5, 0, 5] := by decide +kernel
example {n : Nat} {ys : List Int} (h : forEachP (exampleT [.unrollBy 2]).e (progOp 0 0 0 (clampNeg i32) n) [3, -1, 4, -1, 5, -9, 2, -6, 5, -3, 5] = .ok ys) :=
  forEach_prog_sound (ty := i32) (ts := []) (nm := 0) (p := clampNeg i32) (idle := False) wf11 rfl rfl
    [3, -1, 4, -1, 5, -9, 2, -6, 5, -3, 5] (by unfold Env.Fits; decide) reach11
    (by decide) (by unfold LanesOf; decide)
    (fun t' h => by
      have : t' = i32 := by simpa using h
      subst this
      exact ⟨valid32, by decide⟩)
    (by simp [clampNeg, Typed, MkTyped, ExTyped, valid32]) (Or.inr trivial) h

example := transform_prog_const (t := { exampleT [.unrollBy 2] with e := { exampleEnv with constEval := true }, ins := [1] }) (mem := exprMem)
  (ty := i32) (ts := []) (nm := 0) (p := clampNeg i32) (out := 0) ⟨by decide, by decide, by decide, by decide⟩ (by decide) rfl (by decide) (by decide)
  (fun k => List.reverse_perm (List.range k)) (by decide)
  (fun t' h => by
    have : t' = i32 := by simpa [exampleT] using h
    subst this
    exact ⟨valid32, by decide⟩)
  (by simp [clampNeg, Typed, MkTyped, ExTyped, valid32]) rfl (fun i hi => by
    have : ∃ x, elementsAt { exampleT [.unrollBy 2] with e := { exampleEnv with constEval := true }, ins := [1] } exprMem i = [x] := by
      have h : 1 + i < exprMem.length := by simp [exprMem]; simp [exampleT] at hi; omega
      exact ⟨exprMem[1 + i], by simp [elementsAt, List.getElem?_eq_getElem h]⟩
    obtain ⟨x, hx⟩ := this
    rw [hx]
    exact ⟨_, clampNeg_value x⟩)

end Vir
