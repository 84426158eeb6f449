import Verif.Props.ConcurrentStruct
import Verif.Props.ConcurrentCount
import Verif.Props.CountIfStruct

/-!
# C107: counting structs while other threads write elsewhere
-/

namespace Vir.Threads
open Spec CountIf CountIfStruct ForEachStruct

variable {α ι κ : Type}

/-- A call of `count_if` on `n` structs with `c` members at `base`; `ps` tells whether the library macro is set, `hred` is the horizontal sum of
the simd implementation. -/
structure SCount (α : Type) (c : Nat) where
  e : Env
  A : Nat
  F : Family
  zero : α
  junk : Nat → α
  ps : Bool
  hred : List (Outcome Int) → Outcome Int
  p : SPred α c
  base : Nat
  n : Nat

variable {c : Nat}

/-- The call of `for_each` that `count_if` makes (`/repo/vir/simd_execution.h` 1500-1522). -/
def SCount.call (k : SCount α c) : AnyCall α :=
  .structs k.e k.A k.F k.zero k.junk false c Counters (CountIfStruct.callable k.e k.ps k.p) (.ok (0, List.replicate k.e.size 0)) k.base k.n

/-- What `count_if` returns when `for_each` has left the counters in this state (`/repo/vir/simd_execution.h` 1523-1525). -/
def SCount.result (k : SCount α c) (s : Counters) : Outcome Int := do
  let (count, countv) ← s
  addInt count (← sumCountv k.hred countv)

theorem SCount.result_alone (k : SCount α c) (mem : List α) {r : Counters × List α} (h : k.call.alone mem = .ok r) :
    countIfStruct k.e k.F k.zero k.junk k.ps k.hred k.p (slice mem k.base (k.n * c)) = k.result r.1 := by
  simp only [SCount.call, AnyCall.alone] at h
  unfold countIfStruct
  cases hx : ForEachStruct.forEach k.e k.F k.zero k.junk false (CountIfStruct.callable k.e k.ps k.p) (.ok (0, List.replicate k.e.size 0))
    (slice mem k.base (k.n * c)) with
  | ub e => rw [hx] at h; cases h
  | trap => rw [hx] at h; cases h
  | ok r' =>
    rw [hx] at h
    cases h
    rfl

variable [DecidableEq ι] [DecidableEq κ]

/-- **C107 (`count_if`).** Calls of `count_if` on arrays of structs, which may overlap, run concurrently with calls of `for_each` and `transform`
that write to none of them. Under every schedule, when a thread that counts has finished, the result is the number of the structs `xs k` in
its range at the beginning that satisfy its predicate, if that is an `int`. -/
theorem concurrent_countIfStruct {others : ι → AnyCall α} {counts : κ → SCount α c} {q : κ → Vector α c → Bool} {mem : List α}
    {xs : κ → List (Vector α c)} (hx : ∀ k, slice mem (counts k).base ((counts k).n * c) = flat (xs k)) (hok : ∀ i, (others i).Ok mem)
    (hok' : ∀ k, (counts k).call.Ok mem) (hind : IndependentCalls (Sum.elim others fun k => (counts k).call))
    (hh : ∀ k, SumsLanes (counts k).e.size (counts k).hred) (hq : ∀ k cs, (counts k).p.call (members cs) = cs.map (q k)) :
    let calls : ι ⊕ κ → AnyCall α := Sum.elim others fun k => (counts k).call
    ∃ P : ∀ i, List (Instr (calls i).State α), (∀ i, (calls i).program = .ok (P i)) ∧
      ∀ sched, ∃ r, runSchedule sched (startCalls calls P mem) = .ok r ∧ ¬ Race r ∧
        (∀ i, r.prog i = [] ↔ (P i).length ≤ sched.countP fun j => decide (j = i)) ∧ ∀ k, r.prog (.inr k) = [] →
        (counts k).result (r.loc (.inr k)).st =
          if (xs k).countP (q k) < 2 ^ 31 then .ok ((xs k).countP (q k) : Int) else .ub .overflow := by
  intro calls
  obtain ⟨P, hP, r, hr, H⟩ := concurrent_struct_calls (calls := calls) (mem := mem)
    (fun i => match i with | .inl i => hok i | .inr k => hok' k) hind
  refine ⟨P, hP, fun sched => ?_⟩
  obtain ⟨d, h1, h2, -, -, -, h6, h7⟩ := H sched
  refine ⟨d, h1, h2, h6, fun k hk => ?_⟩
  have hst := (h7 (.inr k) hk).1
  obtain ⟨hE, hF, hce, hpt, hf, has, hm⟩ := hok' k
  have hn : (xs k).length = (counts k).n := by
    have := congrArg List.length (hx k)
    rw [slice_length _ _ _ hm, flat_length] at this
    exact (Nat.eq_of_mul_eq_mul_right hF.pos this).symm
  have hc := countIfStruct_spec hE hF hce hpt (counts k).zero (counts k).junk (counts k).ps (hh k) (counts k).p (q k) (hq k) (xs k)
    (by rw [hn]; exact hf) (by rw [hn]; exact has)
  rw [← hx, (counts k).result_alone mem (hr (.inr k))] at hc
  rw [← hc]
  congr 1

/-- **C107 (parallel count).** Threads that call `count_if` on pieces that make up an array of structs: the sum of their results is the number of
structs that satisfy the predicate. -/
theorem parallel_countIfStruct {counts : κ → SCount α c} {q : Vector α c → Bool} {pieces : κ → List (Vector α c)} (ks : List κ)
    {mem : List α} (hmem : mem = flat (ks.map pieces).flatten)
    (hx : ∀ k, slice mem (counts k).base ((counts k).n * c) = flat (pieces k)) (hok : ∀ k, (counts k).call.Ok mem)
    (hh : ∀ k, SumsLanes (counts k).e.size (counts k).hred) (hq : ∀ k cs, (counts k).p.call (members cs) = cs.map q)
    (hint : (ks.map pieces).flatten.countP q < 2 ^ 31) :
    ∃ P : ∀ k, List (Instr (counts k).call.State α), (∀ k, (counts k).call.program = .ok (P k)) ∧
      ∀ sched, (∀ k, (P k).length ≤ sched.count k) → ∃ r, runSchedule sched (startCalls (fun k => (counts k).call) P mem) = .ok r ∧ ¬ Race r ∧
        ∃ results : κ → Nat, (∀ k ∈ ks, (counts k).result (r.loc k).st = .ok (results k)) ∧
          (ks.map results).sum = (ks.map pieces).flatten.countP q := by
  have hind : IndependentCalls fun k => (counts k).call := fun i j _ a hw => by simp [SCount.call, AnyCall.Writes] at hw
  obtain ⟨P, hP, r, hr, H⟩ := concurrent_struct_calls hok hind
  refine ⟨P, hP, fun sched hs => ?_⟩
  obtain ⟨d, h1, h2, -, -, -, h6, h7⟩ := H sched
  refine ⟨d, h1, h2, fun k => (pieces k).countP q, fun k hk => ?_, ?_⟩
  · have hst := (h7 k ((h6 k).2 (hs k))).1
    obtain ⟨hE, hF, hce, hpt, hf, has, hm⟩ := hok k
    have hn : (pieces k).length = (counts k).n := by
      have := congrArg List.length (hx k)
      rw [slice_length _ _ _ hm, flat_length] at this
      exact (Nat.eq_of_mul_eq_mul_right hF.pos this).symm
    have hc := countIfStruct_spec hE hF hce hpt (counts k).zero (counts k).junk (counts k).ps (hh k) (counts k).p q (hq k) (pieces k)
      (by rw [hn]; exact hf) (by rw [hn]; exact has)
    rw [← hx, (counts k).result_alone mem (hr k)] at hc
    have hle : (pieces k).countP q ≤ (ks.map pieces).flatten.countP q := by
      rw [List.countP_flatten]
      obtain ⟨a, b, rfl⟩ := List.append_of_mem hk
      simp only [List.map_append, List.map_cons, List.sum_append, List.sum_cons]
      omega
    rw [if_pos (by omega)] at hc
    rw [hst]; exact hc
  · rw [List.countP_flatten, List.map_map]
    rfl

/-! ## The theorems applied to concrete data -/

private def evenX : SPred Nat 3 := ⟨fun v => (v.headD []).map (· % 2 == 0), fun v w hv hw => by
  cases v with
  | nil => simp at hv
  | cons a v => simpa using hw a (by simp)⟩

private theorem evenX_members (cs : List (Vector Nat 3)) : evenX.call (members cs) = cs.map fun v => v[0] % 2 == 0 := by
  simp [evenX, members]

private def pointCounts (k : Bool) : SCount Nat 3 :=
  ⟨pointEnv, 4, pointFamily, 0, fun _ => 0, true, fallbackSum, evenX, if k then 6 else 0, if k then 3 else 2⟩

private def pointPieces (k : Bool) : List (Vector Nat 3) :=
  if k then [#v[6, 7, 8], #v[9, 10, 11], #v[12, 13, 14]] else [#v[0, 1, 2], #v[3, 4, 5]]

private theorem pointCounts_ok (m : Nat) (hm : 15 ≤ m) (k : Bool) : (pointCounts k).call.Ok (List.range m) := by
  cases k <;> exact ⟨⟨by decide, by decide, rfl, by decide, by decide, by decide, by decide, ⟨[], by decide⟩⟩, pointFamily_wf, rfl, rfl,
    by unfold Env.Fits; decide, by intro h; revert h; decide, by simp [pointCounts]; omega⟩

example := parallel_countIfStruct (counts := pointCounts) (q := fun v => v[0] % 2 == 0) (pieces := pointPieces) [false, true]
  (mem := List.range 15) (by decide) (by intro k; cases k <;> decide) (pointCounts_ok 15 (by decide))
  (fun k => fallbackSum_sumsLanes (w := pointEnv.size) (by decide) (by decide)) (fun _ => evenX_members) (by decide)

example := concurrent_countIfStruct (others := fun _ : Unit => .elements (.forEach plainEnv true Nat incr 0 15 7)) (counts := pointCounts)
  (q := fun _ v => v[0] % 2 == 0) (xs := pointPieces) (mem := List.range 22) (by intro k; cases k <;> decide)
  (fun _ => ⟨plainEnv_wf, rfl, rfl, by unfold Env.Fits; decide, plainEnv_reaches _, by intro h; revert h; decide, by decide⟩)
  (pointCounts_ok 22 (by decide))
  (by
    rintro (i | i) (j | j) hij a hw
    · exact absurd rfl hij
    · cases j <;> simp [pointCounts, SCount.call, AnyCall.Writes, AnyCall.Reads, Alg.Writes] at hw ⊢ <;> omega
    · simp [SCount.call, AnyCall.Writes] at hw
    · simp [SCount.call, AnyCall.Writes] at hw)
  (fun k => fallbackSum_sumsLanes (w := pointEnv.size) (by decide) (by decide)) (fun _ => evenX_members)

end Vir.Threads
