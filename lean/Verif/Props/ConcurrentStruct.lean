import Verif.Lemmas.ConcurrentStruct
import Verif.Spec.ConcurrentStruct
import Verif.Props.Concurrent

/-!
# C107: calls on arrays of structs that run concurrently
-/

namespace Vir.Threads
open Spec ForEachStruct

variable {σ α : Type} {c : Nat}

/-- **C107 (accesses).** A call of `for_each` on `n` structs reads every member of every struct exactly once, in order; if it writes back it
writes every member exactly once, in order, else none. Its accesses one by one have the effect of the call. -/
theorem forEachStruct_accesses {e : Env} {A : Nat} {F : Family} (hE : StructRange e A) (hF : F.WF c) (hce : e.constEval = false)
    (hpt : e.strictPtr = false) {n : Nat} (hf : e.Fits n) (ha : e.pol.assumeMatchingSize = true → e.size ∣ n) (zero : α) (junk : Nat → α)
    (wb : Bool) (f : SCallable σ α c) (s : σ) (base : Nat) (mem : List α) (hm : base + n * c ≤ mem.length) :
    ∃ P s' ys, forEachStructProgram e F zero junk wb f base n = .ok P ∧
      ForEachStruct.forEach e F zero junk wb f s (slice mem base (n * c)) = .ok (s', ys) ∧
      loadsOf P = List.range' base (n * c) ∧ storesOf P = (if wb then List.range' base (n * c) else []) ∧
      exec P ⟨s, [], []⟩ mem = .ok (⟨s', [], []⟩, writeAt mem base ys) ∧ ys.length = n * c := by
  obtain ⟨xs, hx, hn⟩ := exists_flat (c := c) n (slice mem base (n * c)) (slice_length _ _ _ hm)
  have hp := (reaches_iff hE.wf).1 (hE.reaches n)
  have hr : ∃ r, ForEach.forEach e wb (onStructs F zero f) s xs = .ok r :=
    ⟨_, forEach_eq_run hE.wf hce hf hp (by simp [hpt]) ha wb _ s xs hn⟩
  obtain ⟨r, hr⟩ := hr
  obtain ⟨P, h1, h2⟩ := forEachStructProgram_sim (junk := junk) hF hE.aligned hE.wf hce hpt hf hp ha wb f s base mem hm hx hn hr
  have h3 := (sim_struct (junk := junk) hF hE.aligned hE.size_pos wb f s xs).of_ok hr
  rw [hx] at h3
  exact ⟨P, r.1, flat r.2, h1, h3, h2.loads, h2.stores, h2.run, by rw [flat_length, h2.len]⟩

theorem AnyCall.facts {x : AnyCall α} {mem : List α} (ok : x.Ok mem) :
    ∃ P, x.program = .ok P ∧ ∃ r, x.alone mem = .ok r ∧ (∀ a ∈ loadsOf P, x.Reads a) ∧ (∀ a, a ∈ storesOf P ↔ x.Writes a) ∧
      (storesOf P).Nodup ∧ exec P ⟨x.init, [], []⟩ mem = .ok (⟨r.1, [], []⟩, r.2) := by
  cases x with
  | elements a => exact a.facts ok
  | structs e A F zero junk wb c S f s base n =>
    obtain ⟨hE, hF, hce, hpt, hf, ha, hm⟩ := ok
    obtain ⟨P, s', ys, h1, h2, h3, h4, h5, h6⟩ := forEachStruct_accesses hE hF hce hpt hf ha zero junk wb f s base mem hm
    refine ⟨P, h1, (s', writeAt mem base ys), ?_, ?_, ?_, ?_, h5⟩
    · simp only [AnyCall.alone]; rw [h2]; rfl
    · intro a hx
      have hx : a ∈ loadsOf (σ := S) P := hx
      rw [h3, List.mem_range'_1] at hx; exact hx
    · intro a
      show a ∈ storesOf (σ := S) P ↔ _
      rw [h4]
      cases wb <;> simp [AnyCall.Writes, List.mem_range'_1]
    · show (storesOf (σ := S) P).Nodup
      rw [h4]
      cases wb
      · simp
      · exact List.nodup_range'

theorem AnyCall.Ok.congr {x : AnyCall α} {mem mem' : List α} (ok : x.Ok mem) (h : mem'.length = mem.length) : x.Ok mem' := by
  cases x with
  | elements a => exact Alg.Ok.congr (c := a) ok h
  | structs e A F zero junk wb c S f s base n => simpa [AnyCall.Ok, h] using ok

variable {ι : Type} [DecidableEq ι]

/-- **C107.** Calls of `for_each` on arrays of structs, together with calls on arrays of elements, any number of them with any policies,
callables and ranges, run concurrently, and no call writes a member or element that another one reads or writes. Then under every schedule, at any time: nothing undefined has happened, there is no
data race, every member has its old value or the value that the call that writes it gives it when it runs alone, and members that no
call writes are unchanged. A thread that was scheduled often enough has finished. When a thread has finished, its callable and
all members it writes are as if it had run alone, whatever the others do. -/
theorem concurrent_struct_calls {calls : ι → AnyCall α} {mem : List α} (hok : ∀ i, (calls i).Ok mem) (hind : IndependentCalls calls) :
    ∃ P : ∀ i, List (Instr (calls i).State α), (∀ i, (calls i).program = .ok (P i)) ∧
      ∃ r : ∀ i, (calls i).State × List α, (∀ i, (calls i).alone mem = .ok (r i)) ∧
        ∀ sched, ∃ c, runSchedule sched (startCalls calls P mem) = .ok c ∧ ¬ Race c ∧ c.mem.length = mem.length ∧
          (∀ i a, (calls i).Writes a → c.mem[a]? = mem[a]? ∨ c.mem[a]? = (r i).2[a]?) ∧
          (∀ a, (∀ i, ¬ (calls i).Writes a) → c.mem[a]? = mem[a]?) ∧
          (∀ i, c.prog i = [] ↔ (P i).length ≤ sched.count i) ∧
          (∀ i, c.prog i = [] → (c.loc i).st = (r i).1 ∧ ∀ a, (calls i).Writes a → c.mem[a]? = (r i).2[a]?) := by
  obtain ⟨P, hP⟩ := Classical.skolem.1 fun i => (calls i).facts (hok i)
  obtain ⟨r, hr⟩ := Classical.skolem.1 fun i => (hP i).2
  refine ⟨P, fun i => (hP i).1, r, fun i => (hr i).1, fun sched => ?_⟩
  have hPind : ∀ i j, i ≠ j → ∀ a ∈ storesOf (P i), a ∉ loadsOf (P j) ∧ a ∉ storesOf (P j) := by
    intro i j hij a ha
    have := hind i j hij a (((hr i).2.2.1 a).1 ha)
    exact ⟨fun h => this.1 ((hr j).2.1 a h), fun h => this.2 (((hr j).2.2.1 a).1 h)⟩
  obtain ⟨c, h1, h2⟩ := runSchedule_reach (L := fun i => ⟨(calls i).init, [], []⟩) hPind
    (fun i => ⟨_, (hr i).2.2.2.2⟩) sched
  have hprog (i : ι) : c.prog i = [] ↔ (P i).length ≤ sched.count i := by rw [h2.prog, List.drop_eq_nil_iff]
  refine ⟨c, h1, ?_, h2.len, ?_, ?_, hprog, ?_⟩
  · rintro ⟨i, j, a, hij, hi, hj⟩
    have hsub (k : ι) (x : Instr (calls k).State α) (hx : (c.prog k).head? = some x) : x ∈ P k := by
      rw [h2.prog k] at hx
      exact List.mem_of_mem_drop (List.mem_of_mem_head? hx)
    have hs : ∀ k, Instr.store a ∈ P k → a ∈ storesOf (P k) := by
      intro k hx
      obtain ⟨q1, q2, hq⟩ := List.append_of_mem hx
      rw [hq]; exact mem_stores_cons (by simp [storesOf])
    have hl : ∀ k, Instr.load a ∈ P k → a ∈ loadsOf (P k) := by
      intro k hx
      obtain ⟨q1, q2, hq⟩ := List.append_of_mem hx
      rw [hq]; exact mem_loads_cons (by simp [loadsOf])
    have hna := hPind i j hij a (hs i (hsub i _ hi))
    rcases hj with hj | hj
    · exact hna.1 (hl j (hsub j _ hj))
    · exact hna.2 (hs j (hsub j _ hj))
  · intro i a ha
    obtain ⟨m, g1, g2⟩ := h2.alone i
    rw [g2 a (Or.inr (((hr i).2.2.1 a).2 ha))]
    have hsplit := List.take_append_drop (sched.count i) (P i)
    exact exec_prefix (q := (P i).drop (sched.count i)) g1 (by rw [hsplit]; exact (hr i).2.2.2.2) (by rw [hsplit]; exact (hr i).2.2.2.1) a
  · intro a ha
    exact h2.frame a fun i hx => ha i (((hr i).2.2.1 a).1 hx)
  · intro i hi
    obtain ⟨m, g1, g2⟩ := h2.alone i
    rw [List.take_of_length_le ((hprog i).1 hi), (hr i).2.2.2.2] at g1
    injection g1 with g1
    injection g1 with g3 g4
    refine ⟨by rw [← g3], fun a ha => ?_⟩
    rw [g2 a (Or.inr (((hr i).2.2.1 a).2 ha)), g4]

/-- **C107 (serializability).** When all threads have finished, memory is as if the calls had been made one after the other, in any order. -/
theorem concurrent_struct_calls_serial {calls : ι → AnyCall α} {mem : List α} (hok : ∀ i, (calls i).Ok mem) (hind : IndependentCalls calls) :
    ∃ P : ∀ i, List (Instr (calls i).State α), (∀ i, (calls i).program = .ok (P i)) ∧
      ∀ sched, (∀ i, (P i).length ≤ sched.count i) → ∃ c, runSchedule sched (startCalls calls P mem) = .ok c ∧ (∀ i, c.prog i = []) ∧
        ∀ order : List ι, order.Nodup → (∀ i, i ∈ order) → callsInSequence calls order mem = .ok c.mem := by
  obtain ⟨P, hP, r, hr, H⟩ := concurrent_struct_calls hok hind
  refine ⟨P, hP, fun sched hs => ?_⟩
  obtain ⟨c, h1, _, h3, _, h5, h6, h7⟩ := H sched
  have hfin (i : ι) : c.prog i = [] := (h6 i).2 (hs i)
  refine ⟨c, h1, hfin, fun order hnd hall => ?_⟩
  suffices G : ∀ (os : List ι) (m : List α), os.Nodup → m.length = mem.length →
      (∀ i ∈ os, ∀ a, (calls i).Reads a ∨ (calls i).Writes a → m[a]? = mem[a]?) →
      ∃ m', callsInSequence calls os m = .ok m' ∧ m'.length = mem.length ∧ (∀ i ∈ os, ∀ a, (calls i).Writes a → m'[a]? = (r i).2[a]?) ∧
        (∀ a, (∀ i ∈ os, ¬ (calls i).Writes a) → m'[a]? = m[a]?) by
    obtain ⟨m', g1, g2, g3, g4⟩ := G order mem hnd rfl fun _ _ _ _ => rfl
    rw [g1]
    congr 1
    apply List.ext_getElem?
    intro a
    by_cases hw : ∃ i, (calls i).Writes a
    · obtain ⟨i, hi⟩ := hw
      rw [g3 i (hall i) a hi, (h7 i (hfin i)).2 a hi]
    · rw [g4 a fun i _ h => hw ⟨i, h⟩, h5 a fun i h => hw ⟨i, h⟩]
  intro os
  induction os with
  | nil => intro m _ hm _; exact ⟨m, rfl, hm, by simp, fun _ _ => rfl⟩
  | cons i os ih =>
    intro m hnd hm hag
    rw [List.nodup_cons] at hnd
    obtain ⟨Q, q1, ri, q2, q3, q4, _, q6⟩ := (calls i).facts (hok i)
    obtain ⟨Q', q1', ri', q2', q3', q4', _, q6'⟩ := (calls i).facts ((hok i).congr hm)
    rw [q1] at q1'; injection q1' with q1'; subst q1'
    rw [hr i] at q2; injection q2 with q2; subst q2
    have hrw (a : Nat) (h : a ∈ loadsOf Q ∨ a ∈ storesOf Q) : (calls i).Reads a ∨ (calls i).Writes a :=
      h.imp (q3 a) (q4 a).1
    obtain ⟨m1, k1, k2, k3⟩ := exec_agree q6 hm fun a ha => hag i (by simp) a (hrw a ha)
    rw [q6'] at k1
    injection k1 with k1
    injection k1 with _ k1
    have hframe : ∀ a, ¬ (calls i).Writes a → ri'.2[a]? = m[a]? := fun a ha => exec_frame q6' a fun h => ha ((q4' a).1 h)
    obtain ⟨m', g1, g2, g3, g4⟩ := ih ri'.2 hnd.2 (by rw [k1, k2, hm]) (by
      intro j hj a ha
      have hij : i ≠ j := fun h => hnd.1 (h ▸ hj)
      rw [hframe a fun hw => by
        have := hind i j hij a hw
        rcases ha with ha | ha
        · exact this.1 ha
        · exact this.2 ha]
      exact hag j (by simp [hj]) a ha)
    refine ⟨m', ?_, g2, ?_, ?_⟩
    · rw [callsInSequence, q2', Outcome.bind_ok, g1]
    · intro j hj a ha
      rcases List.mem_cons.1 hj with rfl | hj
      · rw [g4 a fun j' hj' hw => (hind j j' (fun h => hnd.1 (by rw [h]; exact hj')) a ha).2 hw]
        subst k1
        exact k3 a (Or.inr ((q4 a).2 ha))
      · exact g3 j hj a ha
    · intro a ha
      rw [g4 a fun j hj => ha j (by simp [hj]), hframe a (ha i (by simp))]

/-- **C107 (parallel map).** Threads that call `for_each` on pieces of an array of structs, pieces that do not overlap and cover the array,
with callables that apply `g` to every struct, and loads that keep the order: when all have finished `g` has been applied to every struct,
exactly once. -/
theorem parallel_forEachStruct_map {xs : List (Vector α c)} {e : ι → Env} {A : ι → Nat} {F : ι → Family} {zero : α} {junk : Nat → α}
    {S : ι → Type} {f : ∀ i, SCallable (S i) α c} {s : ∀ i, S i} {first n : ι → Nat} {g : Vector α c → Vector α c}
    (hE : ∀ i, StructRange (e i) (A i)) (hF : ∀ i, (F i).WF c) (hce : ∀ i, (e i).constEval = false) (hpt : ∀ i, (e i).strictPtr = false)
    (hf : ∀ i, (e i).Fits (n i)) (ha : ∀ i, (e i).pol.assumeMatchingSize = true → (e i).size ∣ n i) (ho : ∀ i, Ordered (F i) (e i))
    (hin : ∀ i, first i + n i ≤ xs.length)
    (hg : ∀ i s (css : List (List (Vector α c))), ((f i).call s (css.map members)).2 = css.map fun cs => members (cs.map g))
    (hdis : ∀ i j, i ≠ j → first i + n i ≤ first j ∨ first j + n j ≤ first i)
    (hcov : ∀ k, k < xs.length → ∃ i, first i ≤ k ∧ k < first i + n i) :
    ∃ P : ∀ i, List (Instr (S i) α), (∀ i, forEachStructProgram (e i) (F i) zero junk true (f i) (first i * c) (n i) = .ok (P i)) ∧
      ∀ sched, (∀ i, (P i).length ≤ sched.count i) →
        ∃ k, runSchedule sched ⟨P, fun i => ⟨s i, [], []⟩, flat xs⟩ = .ok k ∧ (∀ i, k.prog i = []) ∧ k.mem = flat (xs.map g) := by
  let calls : ι → AnyCall α := fun i => .structs (e i) (A i) (F i) zero junk true c (S i) (f i) (s i) (first i * c) (n i)
  have hok : ∀ i, (calls i).Ok (flat xs) := by
    intro i
    refine ⟨hE i, hF i, hce i, hpt i, hf i, ha i, ?_⟩
    rw [flat_length, ← Nat.add_mul]
    exact Nat.mul_le_mul_right _ (hin i)
  have hind : IndependentCalls calls := by
    intro i j hij a hw
    simp only [calls, AnyCall.Writes, AnyCall.Reads, true_and] at hw ⊢
    rcases hdis i j hij with h | h
    · have := Nat.mul_le_mul_right c h
      rw [Nat.add_mul] at this
      omega
    · have := Nat.mul_le_mul_right c h
      rw [Nat.add_mul] at this
      omega
  obtain ⟨P, hP, r, hr, H⟩ := concurrent_struct_calls hok hind
  refine ⟨P, hP, fun sched hs => ?_⟩
  obtain ⟨k, h1, _, h3, _, _, h6, h7⟩ := H sched
  refine ⟨k, h1, fun i => (h6 i).2 (hs i), ?_⟩
  apply List.ext_getElem?
  intro a
  by_cases hal : a < xs.length * c
  · have hc : 0 < c := Nat.pos_of_ne_zero fun h => by subst h; simp at hal
    obtain ⟨i, hi1, hi2⟩ := hcov (a / c) (Nat.div_lt_of_lt_mul (by rw [Nat.mul_comm]; exact hal))
    have b1 : first i * c ≤ a := (Nat.le_div_iff_mul_le hc).1 hi1
    have b2 : a < first i * c + n i * c := by rw [← Nat.add_mul]; exact (Nat.div_lt_iff_lt_mul hc).1 hi2
    rw [(h7 i ((h6 i).2 (hs i))).2 a ⟨rfl, b1, b2⟩]
    have hsl : slice (flat xs) (first i * c) (n i * c) = flat ((xs.drop (first i)).take (n i)) := flat_slice xs _ _ (hin i)
    have hlen : ((xs.drop (first i)).take (n i)).length = n i := by have := hin i; simp; omega
    obtain ⟨s', hmap⟩ := forEachStruct_map_partial (hE i) (hF i) (hce i) (hpt i) zero junk (f i) g (hg i) (s i)
      ((xs.drop (first i)).take (n i)) (by rw [hlen]; exact hf i) (by rw [hlen]; exact ha i) (ho i)
    have hri := hr i
    simp only [calls, AnyCall.alone] at hri
    rw [hsl, hmap, Outcome.bind_ok] at hri
    injection hri with hri
    rw [← hri]
    simp only
    have hb : first i * c + n i * c ≤ (flat xs).length := by
      rw [flat_length, ← Nat.add_mul]; exact Nat.mul_le_mul_right _ (hin i)
    have hfl : (flat (((xs.drop (first i)).take (n i)).map g)).length = n i * c := by rw [flat_length, List.length_map, hlen]
    rw [writeAt_get _ _ _ (by omega), hfl, if_neg (by omega), if_pos b2]
    have hsl2 : slice (flat (xs.map g)) (first i * c) (n i * c) = flat (((xs.map g).drop (first i)).take (n i)) :=
      flat_slice (xs.map g) _ _ (by simpa using hin i)
    rw [List.map_take, List.map_drop, ← hsl2, slice_get, if_pos (by omega)]
    congr 1; omega
  · rw [List.getElem?_eq_none (by rw [h3, flat_length]; omega), List.getElem?_eq_none (by rw [flat_length, List.length_map]; omega)]

/-! ## The theorems applied to concrete data -/

private theorem pointRanges : StructRange pointEnv4 4 ∧ StructRange pointEnv 4 := by
  refine ⟨⟨by decide, by decide, rfl, by decide, by decide, by decide, by decide, ⟨[], by decide⟩⟩,
    ⟨by decide, by decide, rfl, by decide, by decide, by decide, by decide, ⟨[], by decide⟩⟩⟩

/-- A callable that counts its calls and increments all members. -/
def incrMembers : SCallable Nat Nat 3 where
  call s vs := (s + 1, vs.map (List.map (List.map (· + 1))))
  shape _ vs w h := by
    refine ⟨by simp, ?_⟩
    intro v hv
    obtain ⟨u, hu, rfl⟩ := List.mem_map.1 hv
    have := h u hu
    refine ⟨by simpa using this.1, ?_⟩
    intro x hx
    obtain ⟨y, hy, rfl⟩ := List.mem_map.1 hx
    simpa using this.2 y hy

/-- A callable that increments member `m` of every struct. -/
def incrMember (m : Nat) : SCallable Nat Nat 3 where
  call s vs := (s + 1, vs.map fun v => v.modify m (List.map (· + 1)))
  shape _ vs w h := by
    refine ⟨by simp, ?_⟩
    intro v hv
    obtain ⟨u, hu, rfl⟩ := List.mem_map.1 hv
    have := h u hu
    refine ⟨by simpa using this.1, ?_⟩
    intro x hx
    obtain ⟨j, hj, rfl⟩ := List.mem_iff_getElem.1 hx
    rw [List.getElem_modify]
    have := this.2 (u[j]'(by simpa using hj)) (List.getElem_mem (by simpa using hj))
    split <;> simpa using this

/-- **C107 (independence is per struct).** Two concurrent calls of `for_each` on the same array of structs, one of which changes only the first
member and the other one only the second: all members are written back, there is a data race, and one of the updates can be lost. -/
theorem disjoint_members_lose_updates :
    ∃ (calls : Bool → AnyCall Nat) (mem : List Nat), (∀ i, (calls i).Ok mem) ∧
      calls = (fun i => .structs pointEnv4 4 pointFamily 0 (fun _ => 0) true 3 Nat (incrMember (if i then 1 else 0)) 0 0 1) ∧
      ∃ P : ∀ i, List (Instr (calls i).State Nat), (∀ i, (calls i).program = .ok (P i)) ∧
        (∃ sched c, runSchedule sched (startCalls calls P mem) = .ok c ∧ Race c) ∧
        (∃ sched c, runSchedule sched (startCalls calls P mem) = .ok c ∧ (∀ i, c.prog i = []) ∧ c.mem = [0, 1, 0]) ∧
        callsInSequence calls [false, true] mem = .ok [1, 1, 0] ∧ callsInSequence calls [true, false] mem = .ok [1, 1, 0] := by
  let prog (i : Bool) : List (Instr Nat Nat) :=
    [.load 0, .load 1, .load 2, .call (invokeCopy pointFamily 0 (fun _ => 0) true (incrMember (if i then 1 else 0)) 1 1), .store 0, .store 1, .store 2]
  have hprog (i : Bool) : forEachStructProgram pointEnv4 pointFamily 0 (fun _ => 0) true (incrMember (if i then 1 else 0)) 0 1 = .ok (prog i) := by
    unfold forEachStructProgram
    rw [ForEach.forEachG_trace pointRanges.1.wf rfl (by unfold Env.Fits; decide) (Or.inr (by decide)) (by intro h; revert h; decide)
      (by intro h; revert h; decide)]
    rfl
  refine ⟨fun i => .structs pointEnv4 4 pointFamily 0 (fun _ => 0) true 3 Nat (incrMember (if i then 1 else 0)) 0 0 1, [0, 0, 0], fun _ => ⟨pointRanges.1, pointFamily_wf, rfl, rfl, by unfold Env.Fits; decide, by intro h; revert h; decide, by decide⟩,
    rfl, prog, hprog, ?_, ?_, ?_, ?_⟩
  · exact ⟨[false, false, false, false, true, true, true, true], _, rfl, false, true, 0, by decide, rfl, Or.inr rfl⟩
  · exact ⟨[false, false, false, false, true, true, true, true, false, false, false, true, true, true], _, rfl, by intro i; cases i <;> rfl, rfl⟩
  · decide +kernel
  · decide +kernel

/-- Two arrays of points with different widths, the second one only read, and an array of numbers behind them. -/
def exampleStructCalls : Fin 3 → AnyCall Nat
  | 0 => .structs pointEnv4 4 pointFamily 0 (fun _ => 0) true 3 Nat incrMembers 0 0 5
  | 1 => .structs pointEnv 4 pointFamily 0 (fun _ => 0) false 3 Nat incrMembers 0 15 9
  | 2 => .elements (.forEach plainEnv true Nat incr 0 42 7)

private theorem exampleStructCalls_ok : (∀ i, (exampleStructCalls i).Ok (List.range 50)) ∧ IndependentCalls exampleStructCalls := by
  constructor
  · intro i
    match i with
    | 0 => exact ⟨pointRanges.1, pointFamily_wf, rfl, rfl, by unfold Env.Fits; decide, by intro h; revert h; decide, by decide⟩
    | 1 => exact ⟨pointRanges.2, pointFamily_wf, rfl, rfl, by unfold Env.Fits; decide, by intro h; revert h; decide, by decide⟩
    | 2 => exact ⟨plainEnv_wf, rfl, rfl, by unfold Env.Fits; decide, plainEnv_reaches _, by intro h; revert h; decide, by decide⟩
  · intro i j hij a hw
    match i, j with
    | 0, 0 => exact absurd rfl hij
    | 1, 1 => exact absurd rfl hij
    | 2, 2 => exact absurd rfl hij
    | 0, 1 | 0, 2 | 1, 0 | 1, 2 | 2, 0 | 2, 1 =>
      simp only [exampleStructCalls, AnyCall.Writes, AnyCall.Reads, Alg.Writes, Alg.Reads, true_and] at hw ⊢
      first
        | omega
        | exact absurd hw.1 (by decide)

example := forEachStruct_accesses pointRanges.2 pointFamily_wf rfl rfl (n := 9) (by unfold Env.Fits; decide) (by intro h; revert h; decide)
  0 (fun _ => 0) true incrMembers 0 5 (List.range 40) (by decide)
example := concurrent_struct_calls exampleStructCalls_ok.1 exampleStructCalls_ok.2
example := concurrent_struct_calls_serial exampleStructCalls_ok.1 exampleStructCalls_ok.2

-- what the calls do one after the other
example : callsInSequence exampleStructCalls [2, 1, 0] (List.range 50) =
    .ok ((List.range 50).map fun i => if i < 15 ∨ (42 ≤ i ∧ i < 49) then i + 1 else i) := by decide +kernel

private def exampleStructParts (k : Bool) : Nat × Nat := if k then (2, 3) else (0, 2)

example := parallel_forEachStruct_map (ι := Bool) (xs := List.replicate 5 #v[1, 2, 3]) (e := fun _ => pointEnv4) (A := fun _ => 4)
  (F := fun _ => pointFamily) (zero := 0) (junk := fun _ => 0) (S := fun _ => Nat) (f := fun _ => incrMembers) (s := fun _ => 0)
  (first := fun k => (exampleStructParts k).1) (n := fun k => (exampleStructParts k).2) (g := fun v => v.map (· + 1))
  (fun _ => pointRanges.1) (fun _ => pointFamily_wf) (fun _ => rfl) (fun _ => rfl)
  (by intro k; cases k <;> (unfold Env.Fits; decide)) (fun _ h => absurd h (by decide))
  (by intro _ w _ h2 hu; have h8 : w = 8 := hu.2.2.2.2.1; have h4 : w ≤ 4 := h2; omega)
  (by intro k; cases k <;> decide)
  (by
    intro _ s css
    simp only [incrMembers, List.map_map]
    apply List.map_congr_left
    intro cs _
    simp [members, Function.comp_def])
  (by intro i j; cases i <;> cases j <;> simp [exampleStructParts])
  (by
    intro k hk
    simp only [List.length_replicate] at hk
    by_cases h : k < 2
    · exact ⟨false, by simp [exampleStructParts]; omega⟩
    · exact ⟨true, by simp [exampleStructParts]; omega⟩)

end Vir.Threads
