import Verif.Lemmas.CallCountStruct
import Verif.Props.CallCount
import Verif.Props.CountIfStructEffects
import Verif.Props.ThrowingStruct
import Verif.Props.ThrowingArrays
import Verif.Props.ReduceArrays

/-!
# C106: how often the algorithms invoke the callable on arrays of structs

An array of structs is never too little aligned for loads of the simdized struct, so there are no invocations for an unaligned start: `n`
structs with simdized structs of `size ≤ 2^j` lanes take at most `n / size + j` of them. The output of `transform` may be a range of scalars,
which may be unaligned; there the bound is the one of C81.
-/

namespace Vir
open Spec ForEach CountIf ForEachStruct CountIfStruct TransformArrays Transform

variable {σ α : Type} {c : Nat} {e : Env} {A : Nat} {F : Family}

private theorem starts (hE : StructRange e A) : StartsAligned e := .inl (by rw [hE.align]; exact hE.align_addr)

private theorem simdArguments_simd (log : List (TEvent (Vector α c))) :
    simdArguments (log.map fun ev => simdized (inLanes F ev)) = simdArguments log := by
  simp [simdArguments, simdized, inLanes, Function.comp_def]

/-- **C106 (`for_each`).** The callable gets at most `n / size + j` simdized structs, only `n / size` if `n` is a multiple of `size`. With
`unroll_by<U>` it is invoked at most `n / (size * U) + (U - 1) + j` times. This holds also if it throws. -/
theorem forEachStruct_call_count (hE : StructRange e A) (hF : F.WF c) (hce : e.constEval = false) (hpt : e.strictPtr = false) (zero : α)
    (junk : Nat → α) (wb : Bool) (f : STCallable σ α c) (s : σ) (xs : List (Vector α c)) (hf : e.Fits xs.length)
    (ha : e.pol.assumeMatchingSize = true → e.size ∣ xs.length) {j : Nat} (hj : e.size ≤ 2 ^ j) :
    ∃ r : TState (σ × List (TEvent (List α))) α, ForEachStruct.forEachT e F zero junk wb (loggedST f) (s, []) (flat xs) = .ok r ∧
      simdArguments (recordOf r) ≤ xs.length / e.size + j ∧
      (e.size ∣ xs.length → simdArguments (recordOf r) ≤ xs.length / e.size) ∧
      (recordOf r).length ≤ xs.length / (e.size * max 1 e.pol.unrollBy.toNat) + (max 1 e.pol.unrollBy.toNat - 1) + j := by
  have hp := startsAligned_proCount (starts hE) xs.length
  obtain ⟨r, h, h1, h2⟩ := forEachT_chunks hE.wf hce hpt wb (onStructsT F zero f) s xs hf (hE.reaches _) ha
  obtain ⟨hc1, hc2⟩ := groupsOf_count_aligned hE.wf hp hj
  have hsim := sim_structT (zero := zero) (junk := junk) hF hE.aligned hE.size_pos wb f s xs
  refine ⟨_, hsim.of_ok h, ?_⟩
  have hrec : recordOf (Sum.map (flatLog F) (flatLog F) r) = (recordOf r).map fun ev => simdized (inLanes F ev) := by
    cases r <;> rfl
  rw [hrec, simdArguments_simd, List.length_map]
  refine ⟨Nat.le_trans h1 hc1, fun hd => ?_, Nat.le_trans h2 hc2⟩
  rwa [groupsOf_count_exact hE.wf hp hd] at h1

/-- **C106 (`count_if`).** The predicate is invoked at most `n / size + j` times, only `n / size` times if `n` is a multiple of `size`. This
holds also if it throws. -/
theorem countIfStruct_call_count (hE : StructRange e A) (hF : F.WF c) (hce : e.constEval = false) (hpt : e.strictPtr = false) (zero : α)
    (junk : Nat → α) (hred : List (Outcome Int) → Outcome Int) (p : STPred σ α c) (s : σ) (xs : List (Vector α c)) (hf : e.Fits xs.length)
    (ha : e.pol.assumeMatchingSize = true → e.size ∣ xs.length) {j : Nat} (hj : e.size ≤ 2 ^ j) {s' : σ}
    {log : List (PEvent (List α))} {r : Option Int}
    (h : countIfStructT e F zero junk hred (loggedSP p) (s, []) (flat xs) = .ok ((s', log), r)) :
    log.length ≤ xs.length / e.size + j ∧ (e.size ∣ xs.length → log.length ≤ xs.length / e.size) := by
  have hp := startsAligned_proCount (starts hE) xs.length
  rw [countIfStructT_eq hE hF hce hpt hred p s xs hf ha] at h
  cases hc : countIfT e hred (loggedP (onStructsTP F p)) (s, []) xs with
  | ub x => rw [hc] at h; cases h
  | trap => rw [hc] at h; cases h
  | ok q =>
    obtain ⟨⟨s1, l⟩, v⟩ := q
    rw [hc] at h
    simp only [Outcome.bind_ok, simdLog, Outcome.ok.injEq, Prod.mk.injEq] at h
    have h1 := countIfT_chunks hE.wf hce hpt hred (onStructsTP F p) s xs hf (hE.reaches _) ha hc
    rw [← h.1.2, List.length_map]
    refine ⟨Nat.le_trans h1 (groupsOf_count_aligned hE.wf hp hj).1, fun hd => ?_⟩
    rwa [groupsOf_count_exact hE.wf hp hd] at h1

/-- **C106 (`transform`).** With ranges of structs and scalars the operation is invoked at most `n / size + 2j` times, only `n / size` times
if the policy does not ask for aligned accesses or the output starts aligned, and `n` is a multiple of `size`. This holds also if it throws. -/
theorem transformArrays_call_count {A : AEnv} {arrays : List (List α)} (ok : ArraysOk A arrays) (wf : A.e.WF) (hce : A.e.constEval = false)
    (hpt : A.e.strictPtr = false) (hf : A.e.Fits A.n) (hr : ReachesAlignment A.e A.n)
    (ha : A.e.pol.assumeMatchingSize = true → A.e.size ∣ A.n) (zero : α) (junk : Nat → α) (ord : Nat → List Nat)
    (hord : ∀ k, (ord k).Perm (List.range k)) (op : TOp σ (List α)) (hop : ResultsOk A op) (s : σ) {j : Nat} (hj : A.e.size ≤ 2 ^ j) :
    ∃ (d : Int) (r : TState (σ × List (OpEvent (List α))) (List α)),
      transformTA zero junk A ord (loggedOp op) (s, []) arrays = .ok (d, r) ∧
      (recordOf r).length ≤ A.n / A.e.size + 2 * j ∧
      (StartsAligned A.e → A.e.size ∣ A.n → (recordOf r).length ≤ A.n / A.e.size) := by
  have hp := (reaches_iff wf).1 hr
  have htr := transformG_trace (t := ⟨A.e, [], 0, A.n⟩) wf hce hf hp (by simp [hpt]) ha (chunksTA zero junk A ord (loggedOp op))
    (.inl ((s, []), arrays))
  have hex : ∃ x, transformTA zero junk A ord (loggedOp op) (s, []) arrays = .ok x := by
    rcases transformArrays_effects (zero := zero) (junk := junk) ok wf hce hpt hf hr ha ord hord op hop s with
      ⟨_, _, _, h, _⟩ | ⟨_, _, _, _, _, _, h, _⟩ <;> exact ⟨_, h⟩
  obtain ⟨⟨d, r⟩, h⟩ := hex
  refine ⟨d, r, h, ?_⟩
  unfold transformTA at h
  rw [htr] at h
  have hlog : (recordOf r).length ≤ chunkCount (groupsOf A.e A.n) := by
    cases hg : runGroups (Transform.atPos (chunksTA zero junk A ord (loggedOp op))) 0 (groupsOf A.e A.n) (.inl ((s, []), arrays)) with
    | ub x => rw [hg] at h; cases h
    | trap => rw [hg] at h; cases h
    | ok st =>
      rw [hg] at h
      simp only [Outcome.bind_ok, Outcome.ok.injEq, Prod.mk.injEq] at h
      have h1 := runGroups_cost _ (fun st => (recordOf st).length) Group.k (by
        intro g p st st' hi
        exact chunksTA_log _ _ _ _ hord _ _ _ _ _ _ _ _ _ hi) _ _ _ _ hg
      rw [h.2] at h1
      simp only [recordOf, Sum.elim_inl, List.length_nil, Nat.zero_add] at h1
      exact h1
  refine ⟨Nat.le_trans hlog (groupsOf_count wf hp hj).1, fun hs hd => ?_⟩
  rwa [groupsOf_count_exact wf (startsAligned_proCount hs _) hd] at hlog

open TransformReduce in
/-- **C106 (`transform_reduce`).** With ranges of structs and scalars `transform_op` is invoked at most `n / size + 2j` times, also if an
operation throws. If none does then there are at most `2j + 1` more invocations of `reduce_op` and `reduce(v, reduce_op)` than of
`transform_op`. -/
theorem transformReduceArrays_call_count {β τ : Type} {ins : List Range} {n : Nat} {arrays : List (List α)} (ok : InputArraysOk ins n arrays)
    (wf : e.WF) (hce : e.constEval = false) (hpt : e.strictPtr = false) (hf : e.Fits n) (hr : ReachesAlignment e n)
    (he : ¬ EndsAtFirstAligned e n) (ha : e.pol.assumeMatchingSize = true → e.size ∣ n) (zero : α) (junk : Nat → α)
    (ops : ROps σ (List α) β τ) (init : τ) (s : σ) {j : Nat} (hj : e.size ≤ 2 ^ j) :
    ∃ s' log v, transformReduceA zero junk e ins n (loggedR ops) arrays init (s, []) = .ok ((s', log), v) ∧
      transCalls log ≤ n / e.size + 2 * j ∧
      (v.isSome → reduceCallsIn log ≤ transCalls log + 2 * j + 1) := by
  have hi : 0 < ins.length := List.length_pos_iff.2 ok.ins_ne
  have key : ∀ s' log v, transformReduceA zero junk e ins n (loggedR ops) arrays init (s, []) = .ok ((s', log), v) →
      (∀ ev ∈ log, ShapeOk e.size ins.length ev) → (∃ q, q ≤ n ∧ EachOnce ins n arrays log q) →
      transCalls log ≤ n / e.size + 2 * j ∧ (v.isSome → reduceCallsIn log ≤ transCalls log + 2 * j + 1) := by
    intro s' log v h hs ⟨q, hq, hl⟩
    have hl : (transformedArgs 0 log).length ≤ n := by
      have := (hl 0 hi).length_eq
      simp only [List.length_take] at this
      omega
    constructor
    · have h1 := transformReduceL_cost (narrow_primsA ⟨e, bases n ins, 0, n⟩ ins ops arrays) wf hce hj init _ _ _ h
      simp only [List.countP_nil, Nat.zero_add] at h1
      have h2 := transCalls_le e.size ins.length hi log hs
      have h3 : e.size * transCalls log ≤ n + e.size * (2 * j) :=
        Nat.le_trans h2 (Nat.add_le_add hl (Nat.mul_le_mul_left _ h1))
      have hpos := wf.size_pos
      have h4 : transCalls log ≤ (n + e.size * (2 * j)) / e.size := by
        rw [Nat.le_div_iff_mul_le hpos, Nat.mul_comm]; exact h3
      rwa [Nat.add_mul_div_left _ _ hpos] at h4
    · intro hv
      obtain ⟨a, rfl⟩ := Option.isSome_iff_exists.1 hv
      have h1 := transformReduceL_costZ (t := ⟨e, bases n ins, 0, n⟩) (surplus_primsA e ins ops arrays) wf hce hj init _ _ _ h
      simp only [reduceCallsIn, transCalls] at h1
      omega
  rcases transformReduceArrays_each_once_partial (zero := zero) (junk := junk) ok wf hce hpt hf hr he ha ops init s with
    ⟨s', log, v, h1, _, h3, _, h5⟩ | ⟨s', log, last, h1, _, _, h3, _, h5⟩
  · exact ⟨s', log, some v, h1, key _ _ _ h1 h3 ⟨n, Nat.le_refl _, h5⟩⟩
  · exact ⟨s', log ++ [last], none, h1, key _ _ _ h1 h3 h5⟩

/-! ### The hypotheses are met -/

private theorem range4 : StructRange pointEnv4 4 :=
  ⟨by decide, by decide, rfl, by decide, by decide, by decide, by decide, ⟨[], by decide⟩⟩

-- n points of three numbers, four lanes
example (f : STCallable Nat Nat 3) (xs : List (Vector Nat 3)) (h : xs.length * 12 < 2 ^ 64) :
    ∃ r : TState (Nat × List (TEvent (List Nat))) Nat,
      ForEachStruct.forEachT pointEnv4 pointFamily 0 (fun _ => 0) true (loggedST f) (0, []) (flat xs) = .ok r ∧
      simdArguments (recordOf r) ≤ xs.length / 4 + 2 := by
  obtain ⟨r, h1, h2, _⟩ := forEachStruct_call_count range4 pointFamily_wf rfl rfl 0 (fun _ => 0) true f 0 xs h
    (fun h => absurd h (by decide)) (j := 2) (by decide)
  exact ⟨r, h1, h2⟩

-- without the theorem: ten points take three invocations
example : (countIfStructT pointEnv4 pointFamily 0 (fun _ => 0) fallbackSum (loggedSP (evenThrowsAt 7)) (0, []) (List.range 30) >>= fun r =>
    .ok r.1.2.length) = .ok 3 := by decide +kernel

example {s' : Nat} {log : List (PEvent (List Nat))} {r : Option Int} (p : STPred Nat Nat 3) (xs : List (Vector Nat 3))
    (hf : xs.length * 12 < 2 ^ 64)
    (h : countIfStructT pointEnv4 pointFamily 0 (fun _ => 0) fallbackSum (loggedSP p) (0, []) (flat xs) = .ok ((s', log), r)) :
    log.length ≤ xs.length / 4 + 2 :=
  (countIfStruct_call_count range4 pointFamily_wf rfl rfl 0 (fun _ => 0) fallbackSum p 0 xs hf (fun h => absurd h (by decide)) (j := 2)
    (by decide) h).1

example (n : Nat) (hn : n * 4 < 2 ^ 64) (a b : List Nat) (ha : n * 3 ≤ a.length) (hb : n ≤ b.length) (k : Nat) :
    ∃ (d : Int) (r : TState (Nat × List (OpEvent (List Nat))) (List Nat)),
      transformTA 0 (fun _ => 0) (sumEnv 4 n) List.range (loggedOp (sumThrowsAt k)) (0, []) [a, b] = .ok (d, r) ∧
      (recordOf r).length ≤ n / 4 + 4 := by
  have wf : (sumEnv 4 n).e.WF := libstdcxx_wf _ (show 0 < 4 by decide) ⟨2, rfl⟩ rfl (show 4 ∣ 0x1004 by decide) ⟨[], rfl⟩
    (show stdBitCeil (4 * 4) ≤ 4000 by decide)
  obtain ⟨d, r, h1, h2, _⟩ := transformArrays_call_count (sumEnv_ok 4 n ha hb) wf rfl rfl hn
    (fun h => absurd h (by simp [sumEnv, Policy.prefersAligned])) (fun h => absurd h (by simp [sumEnv, Policy.assumeMatchingSize])) 0
    (fun _ => 0) List.range (fun _ => .refl _) _ (sumThrowsAt_ok 4 n k) 0 (j := 2) (show 4 ≤ 2 ^ 2 by decide)
  exact ⟨d, r, h1, h2⟩

example (n : Nat) (hn : n * 4 < 2 ^ 64) (a b : List Nat) (ha : n * 3 ≤ a.length) (hb : n ≤ b.length) (ops : ROps Nat (List Nat) Nat Nat)
    (init s : Nat) : ∃ s' log v,
      transformReduceA 0 (fun _ => 0) (dotEnv 8 false) [pointsIn, weightsIn] n (loggedR ops) [a, b] init (s, []) = .ok ((s', log), v) ∧
      transCalls log ≤ n / 8 + 2 * 3 ∧ (v.isSome → reduceCallsIn log ≤ transCalls log + 2 * 3 + 1) := by
  refine transformReduceArrays_call_count (weighted_ok n ha hb) (dot_wf (Or.inr rfl)) rfl rfl hn ?_ ?_ ?_ 0 (fun _ => 0) ops init s (j := 3)
    (show 8 ≤ 2 ^ 3 by decide)
  · intro h
    exact absurd h (by simp [dotEnv, Policy.prefersAligned])
  · intro h
    exact absurd h.1 (by simp [dotEnv, Policy.prefersAligned, Policy.autoPrologue])
  · intro h
    exact absurd h (by simp [dotEnv, Policy.assumeMatchingSize])
end Vir
