import Verif.Lemmas.MaskedOps
import Verif.Props.CountIfPartial
import Verif.Props.PartialOps

/-!
# C100: the algorithms with masked simd programs of any element type as callables
-/

namespace Vir
open Spec Spec.OneLane LaneProg ForEach Transform CountIf

variable {α : Type} [Inhabited α] {V M : Nat → Prop} {zs : List α} {nm out : Nat} {p : Stmt α}

omit [Inhabited α] in
/-- **C100.** The program on single elements has one result. -/
theorem result_unique {xs : List α} {v v' : α} (h : Result zs nm out p xs v) (h' : Result zs nm out p xs v') : v = v' := by
  obtain ⟨l, h1, h2⟩ := h
  obtain ⟨l', h1', h2'⟩ := h'
  rw [lanes_unique p h1 h1', h2'] at h2
  exact (Option.some.inj h2).symm

omit [Inhabited α] in
/-- **C100.** The program on single elements has one answer. -/
theorem says_unique {x : α} {b b' : Bool} (h : Says zs nm out p x b) (h' : Says zs nm out p x b') : b = b' := by
  obtain ⟨l, h1, h2⟩ := h
  obtain ⟨l', h1', h2'⟩ := h'
  rw [lanes_unique p h1 h1', h2'] at h2
  exact (Option.some.inj h2).symm

/-- **C100.** `transform` with a masked simd program (nested loops, local variables, any element type) as operation: if the program on single
elements ends for the elements with index `i`, for all `i`, the call ends, returns the end of the output range, makes element `i` of the
output the result for the elements with index `i`, and changes nothing else, whatever the width, the address, the policy and the order of
evaluation are and whichever elements share a simd. -/
theorem transform_masked {t : TEnv} {mem : List α} (ok : RangesOk t mem) (wf : t.e.WF) (hce : t.e.constEval = false)
    (hpt : t.e.strictPtr = false) (hf : t.e.Fits t.n) (hr : ReachesAlignment t.e t.n)
    (ha : t.e.pol.assumeMatchingSize = true → t.e.size ∣ t.n) {ord : Nat → List Nat} (hord : ∀ k, (ord k).Perm (List.range k))
    (hp : IsMasked (t.ins.length + zs.length) nm V M p) (ht : LoopsTotal p) (hout : out < t.ins.length + zs.length) (hV : ¬ V out)
    (hd : ∀ i < t.n, ∃ v, Result zs nm out p (elementsAt t mem i) v) :
    ∃ ys N, (∀ n, N ≤ n → transformP t ord (laneOp zs nm out p n) mem =
        .ok ((t.n : Int), mem.take t.out ++ ys ++ mem.drop (t.out + t.n))) ∧ ys.length = t.n ∧
      ∀ (i : Nat) (v : α), ys[i]? = some v → Result zs nm out p (elementsAt t mem i) v := by
  have hlanes := limOp_lanes (F := fun n => laneOp zs nm out p n) (P := fun _ => True) (laneOp_value hp ht hout hV)
  have hp' := (reaches_iff wf).1 hr
  have htr := fun op => transformG_trace wf hce hf hp' (by simp [hpt]) ha (chunksP t ord op) mem
  have hspan := Transform.groupsOf_span hp'
  have hrun := runGroups_chunksP ok (fun _ _ _ _ => trivial) hlanes hord (Transform.groupsOf t.e t.n) [] (groupsOf_aligned wf hp') (by simp [hspan])
    (by intro i v h; simp at h)
  simp only [List.length_nil, hspan, writeAt_nil, Nat.zero_add] at hrun
  rcases hrun with ⟨zs, h1, h2, h3⟩ | ⟨j, h1, h2, u, h3⟩
  · obtain ⟨N, hN⟩ := runGroups_lim (chunksP_lim (limOp_lim _) t ord) (Transform.groupsOf t.e t.n) 0 mem _ h1
    refine ⟨zs, N, fun n hn => ?_, h2, fun i v h => by simpa using h3 i v h⟩
    unfold transformP
    rw [htr, show runGroups _ _ _ _ = _ from hN n hn, Outcome.bind_ok, writeAt, h2]
  · obtain ⟨v, hv⟩ := hd j h1
    exact absurd hv (h2 v)

/-- **C100.** Conversely, whenever the call ends, the program on single elements ends for the elements with every index, and the output
contains its results. Operations may be undefined for some values here. -/
theorem transform_masked_sound {t : TEnv} {mem mem' : List α} (ok : RangesOk t mem) (wf : t.e.WF) (hce : t.e.constEval = false)
    (hpt : t.e.strictPtr = false) (hf : t.e.Fits t.n) (hr : ReachesAlignment t.e t.n)
    (ha : t.e.pol.assumeMatchingSize = true → t.e.size ∣ t.n) {ord : Nat → List Nat} (hord : ∀ k, (ord k).Perm (List.range k))
    (hp : IsMasked (t.ins.length + zs.length) nm V M p) (hV : ¬ V out) {n : Nat} {k : Int}
    (h : transformP t ord (laneOp zs nm out p n) mem = .ok (k, mem')) :
    k = t.n ∧ ∃ ys, mem' = mem.take t.out ++ ys ++ mem.drop (t.out + t.n) ∧ ys.length = t.n ∧
      ∀ (i : Nat) (v : α), ys[i]? = some v → Result zs nm out p (elementsAt t mem i) v := by
  have hlanes := forceOp_lanes (P := fun _ => True) (laneOp_sound hp hV n)
  have hp' := (reaches_iff wf).1 hr
  have htr := fun op => transformG_trace wf hce hf hp' (by simp [hpt]) ha (chunksP t ord op) mem
  have hspan := Transform.groupsOf_span hp'
  have hrun := runGroups_chunksP ok (fun _ _ _ _ => trivial) hlanes hord (Transform.groupsOf t.e t.n) [] (groupsOf_aligned wf hp') (by simp [hspan])
    (by intro i v h; simp at h)
  simp only [List.length_nil, hspan, writeAt_nil, Nat.zero_add] at hrun
  unfold transformP at h
  rw [htr] at h
  cases hg : runGroups (Transform.atPos (chunksP t ord (laneOp zs nm out p n))) 0 (groupsOf t.e t.n) mem with
  | ub u => rw [hg] at h; cases h
  | trap => rw [hg] at h; cases h
  | ok s =>
    rw [hg, Outcome.bind_ok] at h
    cases h
    obtain ⟨N, hN⟩ := runGroups_lim (chunksP_lim (forceOp_lim (Result zs nm out p)) t ord) (Transform.groupsOf t.e t.n) 0 mem _ hg
    have := hN N (Nat.le_refl _)
    simp only [] at this
    rcases hrun with ⟨ys, h1, h2, h3⟩ | ⟨j, h1, h2, u, h3⟩
    · rw [h1] at this
      cases this
      refine ⟨rfl, ys, by rw [writeAt, h2], h2, fun i v h => by simpa using h3 i v h⟩
    · rw [h3] at this
      cases this

/-- **C100.** So whether such a call ends is a question about the single elements. -/
theorem transform_masked_ends {t : TEnv} {mem : List α} (ok : RangesOk t mem) (wf : t.e.WF) (hce : t.e.constEval = false)
    (hpt : t.e.strictPtr = false) (hf : t.e.Fits t.n) (hr : ReachesAlignment t.e t.n)
    (ha : t.e.pol.assumeMatchingSize = true → t.e.size ∣ t.n) {ord : Nat → List Nat} (hord : ∀ k, (ord k).Perm (List.range k))
    (hp : IsMasked (t.ins.length + zs.length) nm V M p) (ht : LoopsTotal p) (hout : out < t.ins.length + zs.length) (hV : ¬ V out) :
    (∃ n r, transformP t ord (laneOp zs nm out p n) mem = .ok r) ↔ ∀ i < t.n, ∃ v, Result zs nm out p (elementsAt t mem i) v := by
  constructor
  · rintro ⟨n, ⟨k, mem'⟩, h⟩ i hi
    obtain ⟨_, ys, _, h2, h3⟩ := transform_masked_sound ok wf hce hpt hf hr ha hord hp hV h
    exact ⟨_, h3 i _ (List.getElem?_eq_getElem (by omega))⟩
  · intro hd
    obtain ⟨ys, N, h, _⟩ := transform_masked ok wf hce hpt hf hr ha hord hp ht hout hV hd
    exact ⟨N, _, h N (Nat.le_refl _)⟩

/-- **C100.** During constant evaluation `transform` has the same results. -/
theorem transform_masked_const {t : TEnv} {mem : List α} (ok : RangesOk t mem) (hs : 0 < t.e.size) (hce : t.e.constEval = true)
    (hpt : t.e.strictPtr = true → t.n % t.e.size + 1 = t.e.size) (ha : t.e.pol.assumeMatchingSize = true → t.e.size ∣ t.n)
    {ord : Nat → List Nat} (hord : ∀ k, (ord k).Perm (List.range k))
    (hp : IsMasked (t.ins.length + zs.length) nm V M p) (ht : LoopsTotal p) (hout : out < t.ins.length + zs.length) (hV : ¬ V out)
    (hd : ∀ i < t.n, ∃ v, Result zs nm out p (elementsAt t mem i) v) :
    ∃ ys N, (∀ n, N ≤ n → transformP t ord (laneOp zs nm out p n) mem =
        .ok ((t.n : Int), mem.take t.out ++ ys ++ mem.drop (t.out + t.n))) ∧ ys.length = t.n ∧
      ∀ (i : Nat) (v : α), ys[i]? = some v → Result zs nm out p (elementsAt t mem i) v := by
  have hlanes := limOp_lanes (F := fun n => laneOp zs nm out p n) (P := fun _ => True) (laneOp_value hp ht hout hV)
  have htr := fun op => transformG_const hs hce hpt ha (chunksP t ord op) mem
  have hspan := constGroupsOf_span t.e t.n
  have hrun := runGroups_chunksP ok (fun _ _ _ _ => trivial) hlanes hord (constGroupsOf t.e t.n) []
    (groupsAligned_false (fun g hg => by
      simp only [constGroupsOf, List.mem_append, List.mem_replicate] at hg
      rcases hg with ⟨_, rfl⟩ | ⟨_, rfl⟩ <;> rfl) _) (by simp [hspan]) (by intro i v h; simp at h)
  simp only [List.length_nil, hspan, writeAt_nil, Nat.zero_add] at hrun
  rcases hrun with ⟨zs, h1, h2, h3⟩ | ⟨j, h1, h2, u, h3⟩
  · obtain ⟨N, hN⟩ := runGroups_lim (chunksP_lim (limOp_lim _) t ord) (constGroupsOf t.e t.n) 0 mem _ h1
    refine ⟨zs, N, fun n hn => ?_, h2, fun i v h => by simpa using h3 i v h⟩
    unfold transformP
    rw [htr, show runGroups _ _ _ _ = _ from hN n hn, Outcome.bind_ok, writeAt, h2]
  · obtain ⟨v, hv⟩ := hd j h1
    exact absurd hv (h2 v)

/-- **C100.** `for_each` with a callable that runs a masked program on its argument replaces every element by the result of the program on
the single element, if that ends for all of them. -/
theorem forEach_masked {e : Env} (wf : e.WF) (hce : e.constEval = false) (hpt : e.strictPtr = false) (xs : List α)
    (hf : e.Fits xs.length) (hr : ReachesAlignment e xs.length) (ha : e.pol.assumeMatchingSize = true → e.size ∣ xs.length)
    (hp : IsMasked (1 + zs.length) nm V M p) (ht : LoopsTotal p) (hV : ¬ V 0) (hd : ∀ x ∈ xs, ∃ v, Result zs nm 0 p [x] v) :
    ∃ ys N, (∀ n, N ≤ n → forEachP e (laneOp zs nm 0 p n) xs = .ok ys) ∧ AllRelated (fun x v => Result zs nm 0 p [x] v) xs ys := by
  have hlanes := limOp_lanes (F := fun n => laneOp zs nm 0 p n) (P := fun _ => True) (laneOp_value (m := 1) hp ht (by omega) hV)
  have hp' := (reaches_iff wf).1 hr
  have htr := fun op => forEachG_trace wf hce hf hp' (by simp [hpt]) ha (invokeP e op) xs
  have hspan := Transform.groupsOf_span hp'
  have hrun := runGroups_invokeP (e := e) hlanes (Transform.groupsOf e xs.length) [] xs (fun _ _ => trivial) (groupsOf_aligned wf hp') (by omega)
  simp only [List.nil_append, List.length_nil, hspan, List.take_length, List.drop_length, List.append_nil] at hrun
  rcases hrun with ⟨ys, h1, h2⟩ | ⟨x, h1, h2, u, h3⟩
  · obtain ⟨N, hN⟩ := runGroups_lim (invokeP_lim (limOp_lim _) e) (Transform.groupsOf e xs.length) 0 xs _ h1
    refine ⟨ys, N, fun n hn => ?_, h2⟩
    unfold forEachP
    rw [htr]
    exact hN n hn
  · obtain ⟨v, hv⟩ := hd x h1
    exact absurd hv (h2 v)

/-- **C100.** Conversely, whenever `for_each` ends, so does the program on every single element, with these results. -/
theorem forEach_masked_sound {e : Env} (wf : e.WF) (hce : e.constEval = false) (hpt : e.strictPtr = false) (xs : List α)
    (hf : e.Fits xs.length) (hr : ReachesAlignment e xs.length) (ha : e.pol.assumeMatchingSize = true → e.size ∣ xs.length)
    (hp : IsMasked (1 + zs.length) nm V M p) (hV : ¬ V 0) {n : Nat} {ys : List α} (h : forEachP e (laneOp zs nm 0 p n) xs = .ok ys) :
    AllRelated (fun x v => Result zs nm 0 p [x] v) xs ys := by
  have hlanes := forceOp_lanes (P := fun _ => True) (laneOp_sound (m := 1) hp hV n)
  have hp' := (reaches_iff wf).1 hr
  have htr := fun op => forEachG_trace wf hce hf hp' (by simp [hpt]) ha (invokeP e op) xs
  have hspan := Transform.groupsOf_span hp'
  have hrun := runGroups_invokeP (e := e) hlanes (Transform.groupsOf e xs.length) [] xs (fun _ _ => trivial) (groupsOf_aligned wf hp') (by omega)
  simp only [List.nil_append, List.length_nil, hspan, List.take_length, List.drop_length, List.append_nil] at hrun
  unfold forEachP at h
  rw [htr] at h
  obtain ⟨N, hN⟩ := runGroups_lim (invokeP_lim (forceOp_lim (Result zs nm 0 p)) e) (Transform.groupsOf e xs.length) 0 xs _ h
  have := hN N (Nat.le_refl _)
  simp only [] at this
  rcases hrun with ⟨ys, h1, h2⟩ | ⟨j, h1, h2, u, h3⟩
  · rw [h1] at this
    cases this
    exact h2
  · rw [h3] at this
    cases this

/-- **C100.** `count_if` with a masked program as predicate counts the elements for which the program on the single element says `true`. -/
theorem countIf_masked {e : Env} (wf : e.WF) (hce : e.constEval = false) (hpt : e.strictPtr = false) {hred : List (Outcome Int) → Outcome Int}
    (hh : SumsLanes e.size hred) (xs : List α) (hf : e.Fits xs.length) (hr : ReachesAlignment e xs.length)
    (ha : e.pol.assumeMatchingSize = true → e.size ∣ xs.length) (hp : IsMasked (1 + zs.length) nm V M p) (ht : LoopsTotal p)
    (hout : out < nm) (hM : ¬ M out) (q : α → Bool) (hd : ∀ x ∈ xs, Says zs nm out p x (q x)) (hc : xs.countP q < 2 ^ 31) :
    ∃ N, ∀ n, N ≤ n → countIfP e hred (lanePred zs nm out p n) xs = .ok (xs.countP q : Nat) := by
  obtain ⟨N, hN⟩ := infix_bound (xs := xs) (P := fun x n => lanePred zs nm out p n x.length x = .ok (x.map q)) fun x hxs =>
    lanePred_value hp ht hout hM q x fun y hy => hd y (hxs.subset hy)
  exact ⟨N, fun n hn => countIf_defined wf hce hpt hh _ xs hf hr ha q (hN n hn) hc⟩

/-- **C100.** Conversely, whatever `count_if` returns is the number of elements for which the program on the single element says `true`, and
that program ends for all of them. -/
theorem countIf_masked_sound {e : Env} (wf : e.WF) (hce : e.constEval = false) (hpt : e.strictPtr = false)
    {hred : List (Outcome Int) → Outcome Int} (hh : SumsLanes e.size hred) (xs : List α) (hf : e.Fits xs.length)
    (hr : ReachesAlignment e xs.length) (ha : e.pol.assumeMatchingSize = true → e.size ∣ xs.length) (hp : IsMasked (1 + zs.length) nm V M p)
    (hM : ¬ M out) {n : Nat} {r : Int} (h : countIfP e hred (lanePred zs nm out p n) xs = .ok r) :
    ∃ bs, Answers (fun x b => Says zs nm out p x b) xs bs ∧ r = (bs.count true : Nat) := by
  rcases countIf_partialPred wf hce hpt hh (lanePred zs nm out p n) xs hf hr ha with ⟨pieces, h1, h2, h3, h4⟩ | ⟨x, _, _, h3⟩
  · refine ⟨(pieces.map (·.2)).flatten, ?_, ?_⟩
    · rw [← h1]
      clear h1 h3 h4
      induction pieces with
      | nil => exact answers_nil
      | cons x pieces ih =>
        simp only [List.map_cons, List.flatten_cons]
        exact answers_append (lanePred_sound hp hM n x.1 (h2 x (by simp)).1) (ih fun y hy => h2 y (by simp [hy]))
    · by_cases hc : (pieces.map (·.2)).flatten.count true < 2 ^ 31
      · rw [h3 hc] at h
        exact (Outcome.ok.inj h).symm
      · obtain ⟨u, hu⟩ := h4 (by omega)
        rw [hu] at h
        cases h
  · exact absurd h (h3 r)

/-! ### An image of the Mandelbrot set -/

variable (A : PointArith α) (zero : α)

/-- `[](auto re, auto im) { auto cr = re; auto ci = im; V count = n0, t; re = 0; im = 0; <mandel>; return count; }`. -/
def Spec.mandelImage : Stmt α :=
  .seq (.assign 2 (.var 0)) (.seq (.assign 3 (.var 1)) (.seq (.assign 0 (.gen fun _ => .ok zero)) (.seq (.assign 1 (.gen fun _ => .ok zero)) (mandel A))))

omit [Inhabited α] in
theorem mandelImage_masked : IsMasked 6 1 (· = 5) (fun _ => False) (mandelImage A zero) where
  masked := by
    exact .seq (.assign (by decide) (by simp [ExAvoids])) (.seq (.assign (by decide) (by simp [ExAvoids])) (.seq (.assign (by decide) (by trivial))
      (.seq (.assign (by decide) (by trivial)) (mandel_masked A))))
  uses := by simp [mandelImage, mandel, mandelBody, inside, Uses, ExUses, MkUses]
  uniform := by simp [mandelImage, mandel, mandelBody, inside, Uniform, ExUniform, MkUniform]

omit [Inhabited α] in
theorem mandelImage_total : LoopsTotal (mandelImage A zero) := by
  simp [mandelImage, mandel, mandelBody, inside, LoopsTotal, OperandsTotal, ExTotal, MkTotal]

omit [Inhabited α] in
/-- The count for one point that needs `c` iterations. -/
theorem mandelImage_result {cr ci n0 : α} {c : Nat} (h1 : ∀ k, k < c → mandelGo A ((mandelStep A cr ci)^[k] (zero, zero, n0)) = true)
    (h2 : mandelGo A ((mandelStep A cr ci)^[c] (zero, zero, n0)) = false) :
    Result [zero, zero, n0, zero] 1 4 (mandelImage A zero) [cr, ci] ((mandelStep A cr ci)^[c] (zero, zero, n0)).2.2 := by
  obtain ⟨t', h⟩ := mandel_lane A (i := 0) zero false h1 h2
  exact ⟨_, .seq (.assign (.var rfl)) (.seq (.assign (.var rfl)) (.seq (.assign (.gen rfl)) (.seq (.assign (.gen rfl)) h))), rfl⟩

/-- **C100 (a whole algorithm).** `transform` with the Mandelbrot iteration on simds writes, for the points given by two ranges, the counts of the
iteration for the single points, over any arithmetic, although the points of one simd need different numbers of iterations. -/
theorem transform_mandelbrot {t : TEnv} {mem : List α} (ok : RangesOk t mem) (wf : t.e.WF) (hce : t.e.constEval = false)
    (hpt : t.e.strictPtr = false) (hf : t.e.Fits t.n) (hr : ReachesAlignment t.e t.n)
    (ha : t.e.pol.assumeMatchingSize = true → t.e.size ∣ t.n) {ord : Nat → List Nat} (hord : ∀ k, (ord k).Perm (List.range k))
    {a b : Nat} (hins : t.ins = [a, b]) (n0 : α) (cr ci : Nat → α) (hx : ∀ i < t.n, mem[a + i]? = some (cr i) ∧ mem[b + i]? = some (ci i))
    (c : Nat → Nat) (hc : ∀ i < t.n, (∀ k, k < c i → mandelGo A ((mandelStep A (cr i) (ci i))^[k] (zero, zero, n0)) = true) ∧
      mandelGo A ((mandelStep A (cr i) (ci i))^[c i] (zero, zero, n0)) = false) :
    ∃ N, ∀ n, N ≤ n → transformP t ord (laneOp [zero, zero, n0, zero] 1 4 (mandelImage A zero) n) mem =
      .ok ((t.n : Int), mem.take t.out ++ (List.range t.n).map (fun i => ((mandelStep A (cr i) (ci i))^[c i] (zero, zero, n0)).2.2) ++
        mem.drop (t.out + t.n)) := by
  have hel : ∀ i < t.n, elementsAt t mem i = [cr i, ci i] := by
    intro i hi
    unfold elementsAt
    rw [hins]
    simp [(hx i hi).1, (hx i hi).2]
  have hval : ∀ i < t.n, Result [zero, zero, n0, zero] 1 4 (mandelImage A zero) (elementsAt t mem i)
      ((mandelStep A (cr i) (ci i))^[c i] (zero, zero, n0)).2.2 := fun i hi => by
    rw [hel i hi]
    exact mandelImage_result A zero (hc i hi).1 (hc i hi).2
  obtain ⟨ys, N, h1, h2, h3⟩ := transform_masked ok wf hce hpt hf hr ha hord (zs := [zero, zero, n0, zero]) (p := mandelImage A zero) (out := 4)
    (by rw [hins]; exact mandelImage_masked A zero) (mandelImage_total A zero) (by rw [hins]; simp) (by decide) fun i hi => ⟨_, hval i hi⟩
  have hz : ys = (List.range t.n).map fun i => ((mandelStep A (cr i) (ci i))^[c i] (zero, zero, n0)).2.2 := by
    apply List.ext_getElem (by simp [h2])
    intro i g1 g2
    rw [List.getElem_map, List.getElem_range]
    exact result_unique (h3 i _ (List.getElem?_eq_getElem g1)) (hval i (by omega))
  rw [hz] at h1
  exact ⟨N, h1⟩

/-! ### The theorems are about something -/

private theorem wf11 : (exampleT [.unrollBy 2]).e.WF := libstdcxx_wf _ (by decide) ⟨2, rfl⟩ rfl (by decide) ⟨[.unrollBy 2], by decide⟩ (by decide)
private theorem reach11 : ReachesAlignment (exampleT [.unrollBy 2]).e (exampleT [.unrollBy 2]).n := (reaches_iff wf11).2 (by decide)
private theorem fits11 : (exampleT [.unrollBy 2]).e.Fits 11 := by unfold Env.Fits; decide
private theorem rev (k : Nat) : (List.range k).reverse.Perm (List.range k) := List.reverse_perm _

/-- Fixed-point numbers with two decimals. -/
private def fixed : PointArith Int where
  re x y := (x * x - y * y) / 100
  im x y := 2 * x * y / 100
  add := (· + ·)
  next := (· + 1)
  small x y := decide (x * x + y * y ≤ 40000)
  more n := decide (n < 20)

private def reals : List Int := [0, 100, -200, 30, 40, -100, 50, -75, 25, 10, -125]
private def imags : List Int := [0, 0, 100, 50, 40, 0, 50, 10, 60, 70, 20]
private def counts : List Nat := [20, 3, 1, 20, 10, 20, 5, 20, 14, 9, 11]
private def image : List Int := List.replicate 11 7 ++ [5] ++ reals ++ imags ++ [9]
private def imageT : TEnv := { exampleT [.unrollBy 2] with ins := [12, 23], out := 0, n := 11 }

/-- Eleven points which share simds and need different numbers of iterations. -/
example : ∃ N, ∀ n, N ≤ n → transformP imageT (fun k => (List.range k).reverse) (laneOp [0, 0, 0, 0] 1 4 (mandelImage fixed 0) n) image =
    .ok (11, counts.map Int.ofNat ++ [5] ++ reals ++ imags ++ [9]) := by
  obtain ⟨N, h⟩ := transform_mandelbrot fixed 0 (t := imageT) (mem := image) (a := 12) (b := 23) ⟨by decide, by decide, by decide, by decide⟩ wf11 rfl rfl
    fits11 reach11 (by decide) rev rfl 0 (fun i => reals.getD i 0) (fun i => imags.getD i 0) (by decide) (fun i => counts.getD i 0) (by decide +kernel)
  exact ⟨N, fun n hn => (h n hn).trans (by decide +kernel)⟩

-- the same run, executed
example : transformP imageT (fun k => (List.range k).reverse) (laneOp [0, 0, 0, 0] 1 4 (mandelImage fixed 0) 30) image =
    .ok (11, counts.map Int.ofNat ++ [5] ++ reals ++ imags ++ [9]) := by decide +kernel

private theorem collatz_isMasked : IsMasked (1 + ([] : List Int).length) 2 (fun _ => False) (· = 1) collatz :=
  ⟨collatz_masked, collatz_uses, by simp [collatz, notOne, even, Uniform, ExUniform, MkUniform]⟩

/-- Nested loops in a callable: `for_each` ends only if the iteration of every element does. -/
example {n : Nat} {xs ys : List Int} (hl : xs.length = 11)
    (h : forEachP (exampleT [.unrollBy 2]).e (laneOp [] 2 0 collatz n) xs = .ok ys) : AllRelated (fun x v => Result [] 2 0 collatz [x] v) xs ys :=
  forEach_masked_sound wf11 rfl rfl xs (by rw [hl]; exact fits11) (by rw [hl]; exact reach11) (fun h => absurd h (by decide))
    collatz_isMasked id h

example : forEachP (exampleT [.unrollBy 2]).e (laneOp [] 2 0 collatz 40) [6, 1, 7, 3, 8, 2, 5, 9, 4, 10, 12] = .ok (List.replicate 11 1) := by decide +kernel

/-- `where(x < 0, x) = -x; k = x > limit; return k;` with the limit in a further variable. -/
private def large : Stmt Int :=
  .seq (.whereAssign (.cmp (fun x _ => decide (x < 0)) (.var 0) (.var 0)) 0 (.un (fun x => .ok (-x)) (.var 0)))
    (.setMask 0 (.cmp (fun x y => decide (y < x)) (.var 0) (.var 1)))

private theorem large_isMasked : IsMasked (1 + [(3 : Int)].length) 1 (fun _ => False) (fun _ => False) large :=
  ⟨.seq (.whereAssign id (by simp [ExAvoids]) (by simp [MkAvoids, ExAvoids]) (fun h => by cases h))
    (.setMask id (by simp [MkAvoids, ExAvoids]) (fun h => by cases h)), by simp [large, Uses, ExUses, MkUses], by simp [large, Uniform, ExUniform, MkUniform]⟩

private theorem large_run (x : Int) : Run False 0 large ([x, 3], [false]) ([(x.natAbs : Int), 3], [decide (3 < (x.natAbs : Int))]) := by
  have hc := Cond.cmp (i := 0) (l := ([x, 3], [false])) (r := fun x _ => decide (x < 0)) (Value.var (k := 0) rfl) (Value.var (k := 0) rfl)
  by_cases h : x < 0
  · rw [show (x.natAbs : Int) = -x by omega]
    exact .seq (.where_true (v := -x) (by simpa [h] using hc) (.un (.var rfl) rfl)) (.setMask (.cmp (.var rfl) (.var rfl)))
  · rw [show (x.natAbs : Int) = x by omega]
    exact .seq (.where_false (v := -x) (by simpa [h] using hc) (.un (.var rfl) rfl)) (.setMask (.cmp (.var rfl) (.var rfl)))

private theorem large_says (x : Int) : Says [3] 1 0 large x (decide (3 < (x.natAbs : Int))) := ⟨_, large_run x, rfl⟩

private def numbers : List Int := [3, -1, 4, -1, 5, -9, 2, -6, 5, -3, 5]

example : ∃ N, ∀ n, N ≤ n → countIfP (exampleT [.unrollBy 2]).e fallbackSum (lanePred [3] 1 0 large n) numbers = .ok 6 := by
  obtain ⟨N, h⟩ := countIf_masked wf11 rfl rfl (hred := fallbackSum) (fallbackSum_sumsLanes (by decide) (by decide)) numbers fits11 reach11 (by decide) large_isMasked
    (by simp [large, LoopsTotal]) (out := 0) (by decide) id (fun x => decide (3 < (x.natAbs : Int))) (fun x _ => large_says x) (by decide)
  exact ⟨N, fun n hn => (h n hn).trans (by decide +kernel)⟩

example := forEach_masked (zs := [3]) (nm := 1) (p := large) wf11 rfl rfl numbers fits11 reach11 (by decide) large_isMasked
  (by simp [large, LoopsTotal]) id fun x _ => ⟨_, _, large_run x, rfl⟩
example : forEachP (exampleT [.unrollBy 2]).e (laneOp [3] 1 0 large 0) numbers = .ok [3, 1, 4, 1, 5, 9, 2, 6, 5, 3, 5] := by decide +kernel

example : (∃ n r, transformP imageT (fun k => (List.range k).reverse) (laneOp [0, 0, 0, 0] 1 4 (mandelImage fixed 0) n) image = .ok r) ↔
    ∀ i < 11, ∃ v, Result [0, 0, 0, 0] 1 4 (mandelImage fixed 0) (elementsAt imageT image i) v :=
  transform_masked_ends (t := imageT) (mem := image) ⟨by decide, by decide, by decide, by decide⟩ wf11 rfl rfl fits11 reach11 (by decide) rev
    (mandelImage_masked fixed 0) (mandelImage_total fixed 0) (by decide) (by decide)

private def constT : TEnv := { imageT with e := { exampleEnv with constEval := true } }

example := transform_masked_const (t := constT) (mem := image) (zs := [0, 0, 0, 0]) (nm := 1) (p := mandelImage fixed 0) (out := 4)
  ⟨by decide, by decide, by decide, by decide⟩ (by decide) rfl (by decide) (by decide) rev (mandelImage_masked fixed 0) (mandelImage_total fixed 0)
  (by decide) (by decide) fun i hi => by
    have he : ∀ i < 11, elementsAt constT image i = [reals.getD i 0, imags.getD i 0] := by decide
    have hc : ∀ i < 11, (∀ k, k < counts.getD i 0 → mandelGo fixed ((mandelStep fixed (reals.getD i 0) (imags.getD i 0))^[k] (0, 0, 0)) = true) ∧
      mandelGo fixed ((mandelStep fixed (reals.getD i 0) (imags.getD i 0))^[counts.getD i 0] (0, 0, 0)) = false := by decide +kernel
    rw [he i hi]
    exact ⟨_, mandelImage_result fixed 0 (hc i hi).1 (hc i hi).2⟩

end Vir
