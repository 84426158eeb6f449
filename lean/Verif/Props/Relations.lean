import Verif.Props.Reduce
import Verif.Props.CountIf
import Verif.Lemmas.CallCount

/-!
# C82: the policy does not change results, and the algorithms agree with each other

All statements compare two or more calls. `e` and `e'` may have different policies, widths, and (for different calls) addresses.
-/

namespace Vir
open Spec ForEach Transform TransformReduce

variable {σ σ' α β τ : Type}

/-- The conditions under which `for_each`, `transform` and `count_if` are defined at run time (C04, C07, C12), for a range of `n`
elements. -/
structure Spec.CallOk (e : Env) (n : Nat) : Prop where
  wf : e.WF
  run : e.constEval = false
  ptr : e.strictPtr = false
  fits : e.Fits n
  reaches : ReachesAlignment e n
  matching : e.pol.assumeMatchingSize = true → e.size ∣ n

private theorem mapped_unique {t t' : TEnv} {g : List α → α} {mem m m' : List α} (h1 : t.ins = t'.ins) (h2 : t.out = t'.out) (h3 : t.n = t'.n)
    (h : Mapped t g mem m) (h' : Mapped t' g mem m') : m = m' := by
  obtain ⟨a1, a2, a3⟩ := h
  obtain ⟨b1, b2, b3⟩ := h'
  rw [← h1, ← h2, ← h3] at b2
  rw [← h2, ← h3] at b3
  apply List.ext_getElem?
  intro j
  by_cases hj : j < t.out ∨ t.out + t.n ≤ j
  · rw [a3 j hj, b3 j hj]
  · have h1 := a2 (j - t.out) (by omega)
    have h2 := b2 (j - t.out) (by omega)
    rw [show t.out + (j - t.out) = j by omega] at h1 h2
    rw [h1, h2]

private theorem mapped_slice {t : TEnv} {g : List α → α} {mem m : List α} (h : Mapped t g mem m) :
    slice m t.out t.n = (List.range t.n).map fun i => g (t.ins.filterMap fun a => mem[a + i]?) := by
  apply List.ext_getElem?
  intro i
  rw [slice_get]
  by_cases hi : i < t.n
  · rw [if_pos hi, h.2.1 i hi]; simp [hi]
  · rw [if_neg hi]; simp [hi]

/-! ### Results do not depend on policy, width and address -/

/-- **C82 (`for_each`).** -/
theorem forEach_policy_irrelevant {e e' : Env} (xs : List α) (ok : CallOk e xs.length) (ok' : CallOk e' xs.length)
    (f : Callable σ α) (g : α → α) (hg : ∀ s args, (f.call s args).2 = args.map (List.map g)) (s : σ) :
    ∃ s1 s2 ys, forEach e true f s xs = .ok (s1, ys) ∧ forEach e' true f s xs = .ok (s2, ys) := by
  obtain ⟨s1, h1⟩ := forEach_map ok.wf ok.run ok.ptr f g hg s xs ok.fits ok.reaches ok.matching
  obtain ⟨s2, h2⟩ := forEach_map ok'.wf ok'.run ok'.ptr f g hg s xs ok'.fits ok'.reaches ok'.matching
  exact ⟨s1, s2, _, h1, h2⟩

/-- **C82 (`transform`).** -/
theorem transform_policy_irrelevant {e e' : Env} {ins : List Nat} {out n : Nat} {mem : List α} (ok : RangesOk ⟨e, ins, out, n⟩ mem)
    (h : CallOk e n) (h' : CallOk e' n) (op : VecOp α α) (g : List α → α) (hg : LaneWise op g) :
    transform ⟨e, ins, out, n⟩ op mem = transform ⟨e', ins, out, n⟩ op mem ∧ (transform ⟨e, ins, out, n⟩ op mem).Defined := by
  obtain ⟨m1, h1, h2⟩ := transform_maps (t := ⟨e, ins, out, n⟩) ok h.wf h.run h.ptr h.fits h.reaches h.matching op g hg
  obtain ⟨m2, h3, h4⟩ := transform_maps (t := ⟨e', ins, out, n⟩) ⟨ok.1, ok.2, ok.3, ok.4⟩ h'.wf h'.run h'.ptr h'.fits h'.reaches
    h'.matching op g hg
  rw [h1, h3, mapped_unique rfl rfl rfl h2 h4]
  exact ⟨rfl, trivial⟩

/-- **C82 (`count_if`).** Also if the count is not representable: then the behaviour is undefined for both. -/
theorem countIf_policy_irrelevant {e e' : Env} (xs : List α) (ok : CallOk e xs.length) (ok' : CallOk e' xs.length) (ps ps' : Bool)
    {hred hred' : List (Outcome Int) → Outcome Int} (hh : SumsLanes e.size hred) (hh' : SumsLanes e'.size hred')
    (p : CountIf.Pred α) (q : α → Bool) (hq : ∀ x, p.call x = x.map q) :
    countIf e ps hred p xs = countIf e' ps' hred' p xs := by
  rw [countIf_spec ok.wf ok.run ok.ptr ps hh p q hq xs ok.fits ok.reaches ok.matching,
    countIf_spec ok'.wf ok'.run ok'.ptr ps' hh' p q hq xs ok'.fits ok'.reaches ok'.matching]

/-- **C82 (`transform_reduce`).** For an associative and commutative operation. The horizontal reductions may differ, too: they
belong to the width. -/
theorem transformReduce_policy_irrelevant {e e' : Env} {ins : List Nat} {n : Nat} {mem : List α} (ne : ins ≠ [])
    (hin : ∀ a ∈ ins, a + n ≤ mem.length) (ok : RunOk e n) (ok' : RunOk e' n) (trans : VecOp α τ) (g : List α → τ) (hg : LaneWise trans g)
    (op : τ → τ → τ) (hassoc : ∀ a b c, op (op a b) c = op a (op b c)) (hcomm : ∀ a b, op a b = op b a)
    (hred hred' : List τ → τ) (hh : HReduce op hred) (hh' : HReduce op hred') (init : τ) :
    transformReduce ⟨e, ins, n, trans, op, op, id, hred, hred⟩ mem init =
      transformReduce ⟨e', ins, n, trans, op, op, id, hred', hred'⟩ mem init ∧
    (transformReduce ⟨e, ins, n, trans, op, op, id, hred, hred⟩ mem init).Defined := by
  have h1 := transformReduce_eq_fold (R := ⟨e, ins, n, trans, op, op, id, hred, hred⟩) (mem := mem) rfl rfl hassoc hcomm ⟨ne, hin⟩ ok.wf
    ok.run ok.ptr ok.fits ok.reaches ok.notWhole ok.matching hh hh g hg init
  have h2 := transformReduce_eq_fold (R := ⟨e', ins, n, trans, op, op, id, hred', hred'⟩) (mem := mem) rfl rfl hassoc hcomm ⟨ne, hin⟩
    ok'.wf ok'.run ok'.ptr ok'.fits ok'.reaches ok'.notWhole ok'.matching hh' hh' g hg init
  rw [h1, h2]
  exact ⟨rfl, trivial⟩

/-! ### The algorithms agree with each other -/

/-- **C82.** `for_each` with a callable that changes every lane is `transform` from a range onto itself. -/
theorem forEach_eq_transform_in_place {e e' : Env} (xs : List α) (ok : CallOk e xs.length) (ok' : CallOk e' xs.length)
    (f : Callable σ α) (g : α → α) (hf : ∀ s args, (f.call s args).2 = args.map (List.map g)) (s : σ)
    (op : VecOp α α) (hop : ∀ v, op.call [v] = v.map g) :
    ∃ s' ys, forEach e true f s xs = .ok (s', ys) ∧ transform ⟨e', [0], 0, xs.length⟩ op xs = .ok ((xs.length : Int), ys) := by
  obtain ⟨s1, h1⟩ := forEach_map ok.wf ok.run ok.ptr f g hf s xs ok.fits ok.reaches ok.matching
  refine ⟨s1, _, h1, ?_⟩
  obtain ⟨ws, h2, _, _, h3⟩ := transform_chunks (t := ⟨e', [0], 0, xs.length⟩) (mem := xs) ⟨by simp, by simp, by simp, by simp⟩ ok'.wf
    ok'.run ok'.ptr ok'.fits ok'.reaches ok'.matching op
  rw [h3]
  have key : ∀ (ws : List Nat) (p : Nat), outs op [0] xs p ws = (slice xs p ws.sum).map g := by
    intro ws
    induction ws with
    | nil => intro p; simp [outs, slice]
    | cons w ws ih =>
      intro p
      simp only [outs, List.map_cons, List.map_nil, hop, ih, Nat.zero_add, List.sum_cons, slice, ← List.map_append]
      rw [List.take_add, List.drop_drop]
  simp only at h2
  rw [key, h2]
  simp [slice]

/-- **C82.** `transform` followed by `reduce` of its output is `transform_reduce`, for an associative and commutative operation. -/
theorem reduce_transform_eq_transformReduce {e e' e'' : Env} {ins : List Nat} {out n : Nat} {mem : List α}
    (ok : RangesOk ⟨e, ins, out, n⟩ mem) (h : CallOk e n) (h' : RunOk e' n) (h'' : RunOk e'' n) (trans : VecOp α α) (g : List α → α)
    (hg : LaneWise trans g) (op : α → α → α) (hassoc : ∀ a b c, op (op a b) c = op a (op b c)) (hcomm : ∀ a b, op a b = op b a)
    (hred hred' : List α → α) (hh : HReduce op hred) (hh' : HReduce op hred') (init : α) :
    (transform ⟨e, ins, out, n⟩ trans mem >>= fun r => reduceInit e' out n op op id hred hred r.2 init) =
      transformReduce ⟨e'', ins, n, trans, op, op, id, hred', hred'⟩ mem init := by
  obtain ⟨m, h1, h2⟩ := transform_maps (t := ⟨e, ins, out, n⟩) ok h.wf h.run h.ptr h.fits h.reaches h.matching trans g hg
  rw [h1, Outcome.bind_ok]
  simp only
  have hl : out + n ≤ m.length := by rw [h2.1]; exact ok.out_le
  rw [reduce_eq_fold h' hl op hassoc hcomm hred hh init,
    transformReduce_eq_fold (R := ⟨e'', ins, n, trans, op, op, id, hred', hred'⟩) (mem := mem) rfl rfl hassoc hcomm ⟨ok.ins_ne, ok.ins_le⟩
      h''.wf h''.run h''.ptr h''.fits h''.reaches h''.notWhole h''.matching hh' hh' g hg init]
  have := mapped_slice h2
  simp only at this
  rw [this]
  rfl

/-- **C82.** `count_if` is the `transform_reduce` that adds 1 for every element that satisfies the predicate, if the count is
representable in `int`. -/
theorem countIf_eq_transformReduce {e e' : Env} (xs : List α) (ok : CallOk e xs.length) (ok' : RunOk e' xs.length) (ps : Bool)
    {hred : List (Outcome Int) → Outcome Int} (hh : SumsLanes e.size hred) (p : CountIf.Pred α) (q : α → Bool)
    (hq : ∀ x, p.call x = x.map q) (trans : VecOp α Int) (g : List α → Int) (hg : LaneWise trans g) (hgq : ∀ x, g [x] = if q x then 1 else 0)
    (hsum : List Int → Int) (hs : HReduce (· + ·) hsum) (hc : xs.countP q < 2 ^ 31) :
    countIf e ps hred p xs = transformReduce ⟨e', [0], xs.length, trans, (· + ·), (· + ·), id, hsum, hsum⟩ xs 0 := by
  rw [countIf_spec ok.wf ok.run ok.ptr ps hh p q hq xs ok.fits ok.reaches ok.matching, if_pos hc,
    transformReduce_eq_fold (R := ⟨e', [0], xs.length, trans, (· + ·), (· + ·), id, hsum, hsum⟩) (mem := xs) rfl rfl
      Int.add_assoc Int.add_comm ⟨by simp, by simp⟩ ok'.wf ok'.run ok'.ptr ok'.fits ok'.reaches ok'.notWhole ok'.matching hs hs g hg 0]
  have ht : transformed ⟨e', [0], xs.length, trans, (· + ·), (· + ·), id, hsum, hsum⟩ g xs = xs.map fun x => if q x then (1 : Int) else 0 := by
    apply List.ext_getElem?
    intro i
    unfold transformed
    by_cases hi : i < xs.length
    · simp [hi, hgq]
    · simp [hi]
  rw [ht]
  have key : ∀ (l : List α) (a : Int), (l.map fun x => if q x then (1 : Int) else 0).foldl (· + ·) a = a + (l.countP q : Int) := by
    intro l
    induction l with
    | nil => intro a; simp
    | cons x l ih =>
      intro a
      rw [List.map_cons, List.foldl_cons, ih, List.countP_cons]
      split <;> simp <;> omega
  rw [key]
  simp

/-- **C82.** Two `transform`s in sequence leave in the last output range what one `transform` with the composed operation leaves there. -/
theorem transform_fusion {e e' e'' : Env} {ins : List Nat} {out out' n : Nat} {mem : List α}
    (ok : RangesOk ⟨e, ins, out, n⟩ mem) (ok' : RangesOk ⟨e', [out], out', n⟩ mem) (ok'' : RangesOk ⟨e'', ins, out', n⟩ mem)
    (h : CallOk e n) (h' : CallOk e' n) (h'' : CallOk e'' n)
    (op op' op'' : VecOp α α) (g g' : List α → α) (hg : LaneWise op g) (hg' : LaneWise op' g')
    (hg'' : LaneWise op'' fun args => g' [g args]) :
    ∃ m m' m'', transform ⟨e, ins, out, n⟩ op mem = .ok ((n : Int), m) ∧ transform ⟨e', [out], out', n⟩ op' m = .ok ((n : Int), m') ∧
      transform ⟨e'', ins, out', n⟩ op'' mem = .ok ((n : Int), m'') ∧ slice m' out' n = slice m'' out' n := by
  obtain ⟨m, h1, h2⟩ := transform_maps (t := ⟨e, ins, out, n⟩) ok h.wf h.run h.ptr h.fits h.reaches h.matching op g hg
  have hl := h2.1
  obtain ⟨m', h3, h4⟩ := transform_maps (t := ⟨e', [out], out', n⟩) (mem := m)
    ⟨ok'.1, by intro a ha; rw [hl]; exact ok'.2 a ha, by rw [hl]; exact ok'.3, ok'.4⟩ h'.wf h'.run h'.ptr h'.fits h'.reaches h'.matching
    op' g' hg'
  obtain ⟨m'', h5, h6⟩ := transform_maps (t := ⟨e'', ins, out', n⟩) ok'' h''.wf h''.run h''.ptr h''.fits h''.reaches h''.matching op'' _ hg''
  refine ⟨m, m', m'', h1, h3, h5, ?_⟩
  have a1 := mapped_slice h4
  have a2 := mapped_slice h6
  simp only at a1 a2
  rw [a1, a2]
  apply List.map_congr_left
  intro i hi
  have := h2.2.1 i (by simpa using hi)
  simp only at this
  simp [this]

/-! ### What does depend on the policy -/

private def exE (pol : List PolicyOption) : Env := { exampleEnv with pol := ⟨pol⟩ }

private theorem exE_callOk (pol : List PolicyOption) (h : (⟨pol⟩ : Policy).Reachable) (h1 : (⟨pol⟩ : Policy).assumeMatchingSize = false) (n : Nat) (h2 : n < 1000)
    (h3 : 4 ≤ n) : CallOk (exE pol) n := by
  have wf : (exE pol).WF := libstdcxx_wf _ (show 0 < 4 by decide) ⟨2, rfl⟩ rfl (show 4 ∣ 0x1004 by decide) h
    (show stdBitCeil (4 * 4) ≤ 4000 by decide)
  refine ⟨wf, rfl, rfl, show n * 4 < 2 ^ 64 by omega, fun _ _ _ _ => Or.inr ⟨3, by omega, show exampleEnv.al exampleEnv.size ∣ exampleEnv.addr + 3 * exampleEnv.sz by decide⟩, ?_⟩
  intro h
  rw [show (exE pol).pol = ⟨pol⟩ from rfl, h1] at h
  cases h

private theorem exE_runOk (pol : List PolicyOption) (h : (⟨pol⟩ : Policy).Reachable) (h1 : (⟨pol⟩ : Policy).assumeMatchingSize = false) (n : Nat) (h2 : n < 1000)
    (h3 : 4 ≤ n) : RunOk (exE pol) n := by
  have hc := exE_callOk pol h h1 n h2 h3
  refine ⟨hc.wf, rfl, rfl, hc.fits, hc.reaches, ?_, hc.matching⟩
  rw [ends_iff hc.wf]
  rintro ⟨h5, h6⟩
  have : (exE pol).size = 4 := rfl
  rcases proCount_lt hc.wf n with h | h <;> omega

private theorem hreduce_foldl (r : Int → Int → Int) : HReduce r fun v => v.tail.foldl r (v.headD 0) := by
  have key : ∀ (ys xs : List Int) (a : Int), GSum r xs a → GSum r (xs ++ ys) (ys.foldl r a) := by
    intro ys
    induction ys with
    | nil => intro xs a h; simpa using h
    | cons y ys ih =>
      intro xs a h
      have := ih (xs ++ [y]) (r a y) (GSum.node h (GSum.single y))
      simpa using this
  intro v hv
  cases v with
  | nil => exact absurd rfl hv
  | cons x xs => exact key xs [x] x (GSum.single x)

/-- **C82 (associativity is needed).** With an operation that is not associative the policy can change the result of `reduce`. -/
theorem reduce_policy_matters : ∃ (e e' : Env) (n : Nat) (mem : List Int) (hred : List Int → Int), RunOk e n ∧ RunOk e' n ∧
    n ≤ mem.length ∧ HReduce (· - ·) hred ∧
    reduceInit e 0 n (· - ·) (· - ·) id hred hred mem 0 ≠ reduceInit e' 0 n (· - ·) (· - ·) id hred hred mem 0 := by
  refine ⟨exE [], exE [.preferAligned], 8, [1, 2, 3, 4, 5, 6, 7, 8], _, exE_runOk _ ⟨[], by decide⟩ (by decide) 8 (by decide) (by decide),
    exE_runOk _ ⟨[.preferAligned], by decide⟩ (by decide) 8 (by decide) (by decide), by decide, hreduce_foldl _, ?_⟩
  decide +kernel

/-- **C82 (lane-wise callables are needed).** A callable that looks at more than one lane can see the policy. -/
theorem forEach_policy_matters : ∃ (e e' : Env) (xs : List Nat) (f : Callable Unit Nat), CallOk e xs.length ∧ CallOk e' xs.length ∧
    forEach e true f () xs ≠ forEach e' true f () xs := by
  refine ⟨exE [], exE [.preferAligned], [1, 2, 3, 4, 5, 6, 7, 8], ⟨fun s args => (s, args.map List.reverse), by simp [Function.comp_def]⟩,
    exE_callOk _ ⟨[], by decide⟩ (by decide) 8 (by decide) (by decide), exE_callOk _ ⟨[.preferAligned], by decide⟩ (by decide) 8 (by decide) (by decide), ?_⟩
  decide +kernel

/-! ### The hypotheses are met -/

private def exInc : Callable Unit Nat := ⟨fun s args => (s, args.map (List.map (· + 1))), fun _ _ => by simp [Function.comp_def]⟩

example : ∃ s1 s2 ys, forEach (exE [.unrollBy 2]) true exInc () (List.range 23) = .ok (s1, ys) ∧
    forEach (exE [.preferAligned]) true exInc () (List.range 23) = .ok (s2, ys) :=
  forEach_policy_irrelevant _ (exE_callOk _ ⟨[.unrollBy 2], by decide⟩ (by decide) 23 (by decide) (by decide))
    (exE_callOk _ ⟨[.preferAligned], by decide⟩ (by decide) 23 (by decide) (by decide)) exInc (· + 1) (fun _ _ => rfl) ()

example : (transform ⟨exE [], [1, 12], 0, 11⟩ sumOp (List.range 23) >>= fun r =>
      reduceInit (exE [.preferAligned]) 0 11 (· + ·) (· + ·) id List.sum List.sum r.2 100) =
    transformReduce ⟨exE [.unrollBy 2], [1, 12], 11, sumOp, (· + ·), (· + ·), id, List.sum, List.sum⟩ (List.range 23) 100 :=
  reduce_transform_eq_transformReduce ⟨by decide, by decide, by decide, by decide⟩
    (exE_callOk _ ⟨[], by decide⟩ (by decide) 11 (by decide) (by decide))
    (exE_runOk _ ⟨[.preferAligned], by decide⟩ (by decide) 11 (by decide) (by decide))
    (exE_runOk _ ⟨[.unrollBy 2], by decide⟩ (by decide) 11 (by decide) (by decide)) sumOp List.sum sumOp_laneWise (· + ·)
    Nat.add_assoc Nat.add_comm List.sum List.sum hreduce_sum hreduce_sum 100

example : countIf (exE []) true CountIf.fallbackSum ⟨fun x => x.map (· % 3 == 0), by simp⟩ (List.range 23) =
    countIf (exE [.preferAligned]) false CountIf.fallbackSum ⟨fun x => x.map (· % 3 == 0), by simp⟩ (List.range 23) :=
  countIf_policy_irrelevant (e := exE []) (e' := exE [.preferAligned]) (List.range 23) (exE_callOk [] ⟨[], by decide⟩ (by decide) 23 (by decide) (by decide))
    (exE_callOk [.preferAligned] ⟨[.preferAligned], by decide⟩ (by decide) 23 (by decide) (by decide)) _ _
    (fallbackSum_sumsLanes (by decide) (by decide)) (fallbackSum_sumsLanes (by decide) (by decide)) _ _ (fun _ => rfl)

/-! ## The theorems applied to concrete data -/

private theorem exCall (pol : List PolicyOption) (h : pol = [] ∨ pol = [.unrollBy 2] ∨ pol = [.preferAligned]) : CallOk (exE pol) 11 ∧ RunOk (exE pol) 11 := by
  rcases h with rfl | rfl | rfl
  · exact ⟨exE_callOk _ ⟨[], by decide⟩ (by decide) 11 (by decide) (by decide), exE_runOk _ ⟨[], by decide⟩ (by decide) 11 (by decide) (by decide)⟩
  · exact ⟨exE_callOk _ ⟨[.unrollBy 2], by decide⟩ (by decide) 11 (by decide) (by decide), exE_runOk _ ⟨[.unrollBy 2], by decide⟩ (by decide) 11 (by decide) (by decide)⟩
  · exact ⟨exE_callOk _ ⟨[.preferAligned], by decide⟩ (by decide) 11 (by decide) (by decide), exE_runOk _ ⟨[.preferAligned], by decide⟩ (by decide) 11 (by decide) (by decide)⟩

private theorem exRanges (pol : List PolicyOption) (ins : List Nat) (out : Nat) (h : ins ≠ [] ∧ (∀ a ∈ ins, a + 11 ≤ 40) ∧ out + 11 ≤ 40 ∧ ∀ a ∈ ins, out ≤ a ∨ a + 11 ≤ out) :
    RangesOk ⟨exE pol, ins, out, 11⟩ (List.range 40) := by
  obtain ⟨h1, h2, h3, h4⟩ := h
  exact ⟨h1, by simpa using h2, by simpa using h3, h4⟩

/-- The sum of the arguments, twice. -/
private def sumTwice : VecOp Nat Nat where
  call args := sumOp.call [sumOp.call args, sumOp.call args]
  shape w args hne hl := by
    have := sumOp.shape w args hne hl
    exact sumOp.shape w _ (by simp) (by simp [this])

private def dupSum : VecOp Nat Nat where
  call args := sumOp.call (args ++ args)
  shape w args hne hl := sumOp.shape w _ (by simp [hne]) (by simpa using hl)

private theorem dupSum_laneWise : LaneWise dupSum (fun xs => (xs ++ xs).sum) := by
  intro w args hne hl
  have := sumOp_laneWise w (args ++ args) (by simp [hne]) (by simpa using hl)
  simpa [dupSum] using this

private theorem sumTwice_laneWise : LaneWise sumTwice (fun xs => ([xs.sum] ++ [xs.sum]).sum) := by
  intro w args hne hl
  have h1 := sumOp_laneWise w args hne hl
  have hl1 := sumOp.shape w args hne hl
  have := sumOp_laneWise w [sumOp.call args, sumOp.call args] (by simp) (by simp [hl1])
  simp only [sumTwice]
  rw [this]
  apply List.map_congr_left
  intro i hi
  have hi : i < w := by simpa using hi
  have : (sumOp.call args)[i]? = some ((args.filterMap (·[i]?)).sum) := by
    rw [h1, List.getElem?_map, List.getElem?_range hi]; rfl
  simp [this]

example := transform_policy_irrelevant (exRanges [] [1, 12] 0 (by decide)) (exCall [] (.inl rfl)).1 (exCall [.preferAligned] (.inr (.inr rfl))).1 sumOp _ sumOp_laneWise
example := transformReduce_policy_irrelevant (ins := [1, 12]) (mem := List.range 40) (by decide) (by decide) (exCall [] (.inl rfl)).2
  (exCall [.preferAligned] (.inr (.inr rfl))).2 sumOp _ sumOp_laneWise (· + ·) Nat.add_assoc Nat.add_comm List.sum List.sum hreduce_sum hreduce_sum 7
example := forEach_eq_transform_in_place (List.range 11) (exCall [] (.inl rfl)).1 (exCall [.preferAligned] (.inr (.inr rfl))).1 exInc (· + 1) (fun _ _ => rfl) ()
example := transform_fusion (exRanges [] [1, 12] 0 (by decide)) (exRanges [.unrollBy 2] [0] 25 (by decide)) (exRanges [.preferAligned] [1, 12] 25 (by decide))
  (exCall [] (.inl rfl)).1 (exCall [.unrollBy 2] (.inr (.inl rfl))).1 (exCall [.preferAligned] (.inr (.inr rfl))).1 sumOp dupSum sumTwice _ _
  sumOp_laneWise dupSum_laneWise sumTwice_laneWise

end Vir
