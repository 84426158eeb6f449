import Verif.Props.Concurrent
import Verif.Props.CountIf

/-!
# C86: counting while other threads write elsewhere
-/

namespace Vir.Threads
open Spec CountIf

variable {α ι κ : Type}

/-- A call of `count_if`: whether the library macro is set, the horizontal sum of the simd implementation, predicate and range. -/
structure Count (α : Type) where
  e : Env
  ps : Bool
  hred : List (Outcome Int) → Outcome Int
  p : Pred α
  base : Nat
  n : Nat

/-- The call of `for_each` that `count_if` makes (`/repo/vir/simd_execution.h` 1500-1522). -/
def Count.call (k : Count α) : Alg α :=
  .forEach k.e false Counters (callable k.e k.ps k.p) (.ok (0, List.replicate k.e.size 0)) k.base k.n

/-- What `count_if` returns when `for_each` has left the counters in this state (`/repo/vir/simd_execution.h` 1523-1525). -/
def Count.result (k : Count α) (s : Counters) : Outcome Int := do
  let (count, countv) ← s
  addInt count (← sumCountv k.hred countv)

theorem Count.result_alone (k : Count α) (mem : List α) {r : Counters × List α} (h : k.call.alone mem = .ok r) :
    countIf k.e k.ps k.hred k.p (slice mem k.base k.n) = k.result r.1 := by
  simp only [Count.call, Alg.alone] at h
  unfold countIf
  cases hx : ForEach.forEach k.e false (callable k.e k.ps k.p) (.ok (0, List.replicate k.e.size 0)) (slice mem k.base k.n) with
  | ub e => rw [hx] at h; cases h
  | trap => rw [hx] at h; cases h
  | ok r' =>
    rw [hx] at h
    cases h
    rfl

variable [DecidableEq ι] [DecidableEq κ]

/-- **C86 (`count_if`).** Calls of `count_if`, whose ranges may overlap, run concurrently with calls of `for_each` and `transform` that write
to none of them. Under every schedule, when a thread that counts has finished, the result is what it would be alone on the memory at the
beginning: the number of elements that satisfy its predicate, if that is an `int`. -/
theorem concurrent_countIf {others : ι → Alg α} {counts : κ → Count α} {q : κ → α → Bool} {mem : List α}
    (hok : ∀ i, (others i).Ok mem) (hok' : ∀ k, (counts k).call.Ok mem) (hind : Independent (Sum.elim others fun k => (counts k).call))
    (hh : ∀ k, SumsLanes (counts k).e.size (counts k).hred) (hq : ∀ k x, (counts k).p.call x = x.map (q k)) :
    let calls : ι ⊕ κ → Alg α := Sum.elim others fun k => (counts k).call
    ∃ P : ∀ i, List (Instr (calls i).State α), (∀ i, (calls i).program = .ok (P i)) ∧
      ∀ sched, ∃ c, runSchedule sched (start calls P mem) = .ok c ∧ ¬ Race c ∧ ∀ k, c.prog (.inr k) = [] →
        (counts k).result (c.loc (.inr k)).st =
          if (slice mem (counts k).base (counts k).n).countP (q k) < 2 ^ 31 then
            .ok ((slice mem (counts k).base (counts k).n).countP (q k) : Int)
          else .ub .overflow := by
  intro calls
  obtain ⟨P, hP, r, hr, H⟩ := concurrent_calls (calls := calls) (mem := mem)
    (fun i => match i with | .inl i => hok i | .inr k => hok' k) hind
  refine ⟨P, hP, fun sched => ?_⟩
  obtain ⟨c, h1, h2, -, -, -, -, h7⟩ := H sched
  refine ⟨c, h1, h2, fun k hk => ?_⟩
  have hst := (h7 (.inr k) hk).1
  obtain ⟨wf, hce, hpt, hf, hre, has, hm⟩ := hok' k
  have hn : (slice mem (counts k).base (counts k).n).length = (counts k).n := slice_length _ _ _ hm
  rw [← countIf_spec wf hce hpt (counts k).ps (hh k) (counts k).p (q k) (hq k) _ (by rw [hn]; exact hf) (by rw [hn]; exact hre)
    (by rw [hn]; exact has), (counts k).result_alone mem (hr (.inr k))]
  congr 1

/-- **C86 (parallel count).** Threads that call `count_if` on pieces that make up an array: the sum of their results is the number of elements
that satisfy the predicate. -/
theorem parallel_countIf {counts : κ → Count α} {q : α → Bool} {mem : List α} (hok : ∀ k, (counts k).call.Ok mem)
    (hh : ∀ k, SumsLanes (counts k).e.size (counts k).hred) (hq : ∀ k x, (counts k).p.call x = x.map q) (ks : List κ)
    (hcov : (ks.map fun k => slice mem (counts k).base (counts k).n).flatten = mem) (hint : mem.countP q < 2 ^ 31) :
    ∃ P : ∀ k, List (Instr (counts k).call.State α), (∀ k, (counts k).call.program = .ok (P k)) ∧
      ∀ sched, (∀ k, (P k).length ≤ sched.count k) → ∃ c, runSchedule sched (start (fun k => (counts k).call) P mem) = .ok c ∧ ¬ Race c ∧
        ∃ results : κ → Nat, (∀ k ∈ ks, (counts k).result (c.loc k).st = .ok (results k)) ∧ (ks.map results).sum = mem.countP q := by
  have hind : Independent fun k => (counts k).call := fun i j _ a hw => by simp [Count.call, Alg.Writes] at hw
  obtain ⟨P, hP, r, hr, H⟩ := concurrent_calls hok hind
  refine ⟨P, hP, fun sched hs => ?_⟩
  obtain ⟨c, h1, h2, -, -, -, h6, h7⟩ := H sched
  refine ⟨c, h1, h2, fun k => (slice mem (counts k).base (counts k).n).countP q, fun k hk => ?_, ?_⟩
  · have hst := (h7 k ((h6 k).2 (hs k))).1
    obtain ⟨wf, hce, hpt, hf, hre, has, hm⟩ := hok k
    have hn : (slice mem (counts k).base (counts k).n).length = (counts k).n := slice_length _ _ _ hm
    have hc := countIf_spec wf hce hpt (counts k).ps (hh k) (counts k).p q (hq k) _ (by rw [hn]; exact hf) (by rw [hn]; exact hre)
      (by rw [hn]; exact has)
    rw [(counts k).result_alone mem (hr k)] at hc
    have hle : (slice mem (counts k).base (counts k).n).countP q ≤ mem.countP q := by
      conv_rhs => rw [← hcov]
      rw [List.countP_flatten]
      obtain ⟨xs, ys, rfl⟩ := List.append_of_mem hk
      simp only [List.map_append, List.map_cons, List.sum_append, List.sum_cons]
      omega
    rw [if_pos (by omega)] at hc
    rw [hst]; exact hc
  · conv_rhs => rw [← hcov]
    rw [List.countP_flatten, List.map_map]
    rfl

/-! ### the theorems are about something -/

/-- Two threads count multiples of three in the two parts of 23 elements. -/
def exampleCounts (k : Bool) : Count Nat :=
  ⟨plainEnv, true, fallbackSum, ⟨fun x => x.map (· % 3 == 0), by simp⟩, if k then 11 else 0, if k then 12 else 11⟩

private theorem exampleCounts_ok : (∀ k, (exampleCounts k).call.Ok (List.range 23)) ∧ (∀ k, SumsLanes (exampleCounts k).e.size (exampleCounts k).hred) ∧
    (([false, true].map fun k => slice (List.range 23) (exampleCounts k).base (exampleCounts k).n).flatten = List.range 23) ∧
    (List.range 23).countP (· % 3 == 0) = 8 := by
  refine ⟨fun k => ?_, fun k => fallbackSum_sumsLanes (w := plainEnv.size) (by decide) (by decide), by decide, by decide⟩
  cases k <;> exact ⟨plainEnv_wf, rfl, rfl, by unfold Env.Fits; decide, plainEnv_reaches _, by intro h; revert h; decide, by decide⟩

/-- A thread that writes next to the elements that the others count. -/
private theorem exampleCounts_independent : Independent (Sum.elim (fun _ : Unit => Alg.forEach plainEnv true Nat incr 0 23 7) fun k => (exampleCounts k).call) := by
  rintro (i | i) (j | j) hij a hw
  · exact absurd rfl hij
  · cases j <;> simp [exampleCounts, Count.call, Alg.Writes, Alg.Reads] at hw ⊢ <;> omega
  · simp [exampleCounts, Count.call, Alg.Writes] at hw
  · simp [exampleCounts, Count.call, Alg.Writes] at hw

/-! ## The theorems applied to concrete data -/

example := parallel_countIf exampleCounts_ok.1 exampleCounts_ok.2.1 (q := (· % 3 == 0)) (fun _ _ => rfl) [false, true] exampleCounts_ok.2.2.1
  (by rw [exampleCounts_ok.2.2.2]; decide)

private theorem exampleCounts_ok' (k : Bool) : (exampleCounts k).call.Ok (List.range 30) := by
  cases k <;> exact ⟨plainEnv_wf, rfl, rfl, by unfold Env.Fits; decide, plainEnv_reaches _, by intro h; revert h; decide, by decide⟩

example := concurrent_countIf (others := fun _ : Unit => Alg.forEach plainEnv true Nat incr 0 23 7) (counts := exampleCounts)
  (q := fun _ x => x % 3 == 0) (mem := List.range 30)
  (fun _ => ⟨plainEnv_wf, rfl, rfl, by unfold Env.Fits; decide, plainEnv_reaches _, by intro h; revert h; decide, by decide⟩)
  exampleCounts_ok' exampleCounts_independent exampleCounts_ok.2.1 (fun _ _ => rfl)

end Vir.Threads
