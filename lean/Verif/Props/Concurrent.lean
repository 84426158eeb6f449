import Verif.Lemmas.ConcurrentPrograms
import Verif.Props.ForEach
import Verif.Props.Transform

/-!
# C86: calls that run concurrently
-/

namespace Vir.Threads
open Spec

variable {σ α : Type}

/-- **C86 (accesses of `for_each`).** A call reads every element of its range exactly once, in order; if it writes back it writes every
element exactly once, in order, else none. Its accesses one by one have the effect of the call. -/
theorem forEach_accesses {e : Env} (wf : e.WF) (hce : e.constEval = false) (hpt : e.strictPtr = false) {n : Nat} (hf : e.Fits n)
    (hr : ReachesAlignment e n) (ha : e.pol.assumeMatchingSize = true → e.size ∣ n) (wb : Bool) (f : Callable σ α) (s : σ) (base : Nat)
    (mem : List α) (hm : base + n ≤ mem.length) :
    ∃ P s' ys, forEachProgram e wb f base n = .ok P ∧ ForEach.forEach e wb f s (slice mem base n) = .ok (s', ys) ∧
      loadsOf P = List.range' base n ∧ storesOf P = (if wb then List.range' base n else []) ∧
      exec P ⟨s, [], []⟩ mem = .ok (⟨s', [], []⟩, writeAt mem base ys) ∧ ys.length = n := by
  have hn : (slice mem base n).length = n := slice_length _ _ _ hm
  have hx : ∃ r, ForEach.forEach e wb f s (slice mem base n) = .ok r :=
    ⟨_, forEach_eq_run wf hce hf ((reaches_iff wf).1 hr) (by simp [hpt]) ha wb f s _ hn⟩
  obtain ⟨r, hx⟩ := hx
  obtain ⟨P, h1, h2⟩ := forEachProgram_sim wf hce hpt hf ((reaches_iff wf).1 hr) ha wb f s base mem hm hx
  exact ⟨P, r.1, r.2, h1, hx, h2.loads, h2.stores, h2.run, h2.len⟩

/-- **C86 (accesses of `transform`).** A call reads elements of its input ranges only and writes every element of the output range exactly
once, in order. Its accesses one by one have the effect of the call. -/
theorem transform_accesses {t : TEnv} {mem : List α} (ok : RangesOk t mem) (wf : t.e.WF) (hce : t.e.constEval = false)
    (hpt : t.e.strictPtr = false) (hf : t.e.Fits t.n) (hr : ReachesAlignment t.e t.n)
    (ha : t.e.pol.assumeMatchingSize = true → t.e.size ∣ t.n) (op : VecOp α α) :
    ∃ P mem', transformProgram t op = .ok P ∧ Transform.transform t op mem = .ok ((t.n : Int), mem') ∧
      (∀ a ∈ loadsOf P, ∃ b ∈ t.ins, b ≤ a ∧ a < b + t.n) ∧ storesOf P = List.range' t.out t.n ∧
      exec P ⟨(), [], []⟩ mem = .ok (⟨(), [], []⟩, mem') := by
  have hp := (reaches_iff wf).1 hr
  have hx := Transform.transform_eq ok wf hce hf hp (by simp [hpt]) ha op
  obtain ⟨P, h1, h2⟩ := transformProgram_sim wf hce hpt hf hp ha op mem ok.out_le hx
  exact ⟨P, _, h1, hx, h2.loads, h2.stores, h2.run⟩

theorem Alg.facts {c : Alg α} {mem : List α} (ok : c.Ok mem) :
    ∃ P, c.program = .ok P ∧ ∃ r, c.alone mem = .ok r ∧ (∀ a ∈ loadsOf P, c.Reads a) ∧ (∀ a, a ∈ storesOf P ↔ c.Writes a) ∧
      (storesOf P).Nodup ∧ exec P ⟨c.init, [], []⟩ mem = .ok (⟨r.1, [], []⟩, r.2) := by
  cases c with
  | forEach e wb S f s base n =>
    obtain ⟨wf, hce, hpt, hf, hr, ha, hm⟩ := ok
    obtain ⟨P, s', ys, h1, h2, h3, h4, h5, h6⟩ := forEach_accesses wf hce hpt hf hr ha wb f s base mem hm
    refine ⟨P, h1, (s', writeAt mem base ys), ?_, ?_, ?_, ?_, h5⟩
    · simp only [Alg.alone]; rw [h2]; rfl
    · intro a hx
      have hx : a ∈ loadsOf (σ := S) P := hx
      rw [h3, List.mem_range'_1] at hx; exact hx
    · intro a
      show a ∈ storesOf (σ := S) P ↔ _
      rw [h4]
      cases wb <;> simp [Alg.Writes, List.mem_range'_1]
    · show (storesOf (σ := S) P).Nodup
      rw [h4]
      cases wb
      · simp
      · exact List.nodup_range'
  | transform t op =>
    obtain ⟨wf, hce, hpt, hf, hr, ha, hok⟩ := ok
    obtain ⟨P, mem', h1, h2, h3, h4, h5⟩ := transform_accesses hok wf hce hpt hf hr ha op
    refine ⟨P, h1, ((), mem'), ?_, h3, ?_, ?_, h5⟩
    · simp only [Alg.alone]; rw [h2]; rfl
    · intro a; show a ∈ storesOf (σ := Unit) P ↔ _; rw [h4, List.mem_range'_1]; rfl
    · show (storesOf (σ := Unit) P).Nodup; rw [h4]; exact List.nodup_range'

theorem Alg.Ok.congr {c : Alg α} {mem mem' : List α} (ok : c.Ok mem) (h : mem'.length = mem.length) : c.Ok mem' := by
  cases c with
  | forEach e wb S f s base n => simpa [Alg.Ok, h] using ok
  | transform t op =>
    obtain ⟨h1, h2, h3, h4, h5, h6, h7⟩ := ok
    exact ⟨h1, h2, h3, h4, h5, h6, h7.ins_ne, by rw [h]; exact h7.ins_le, by rw [h]; exact h7.out_le, h7.alias⟩

variable {ι : Type} [DecidableEq ι]

/-- **C86.** Calls of `for_each` and `transform`, any number of them with any policies, callables and ranges, run concurrently, and no call
writes an element that another one reads or writes. Then under every schedule, at any time: nothing undefined has happened, there is no
data race, every element has its old value or the value that the call that writes it gives it when it runs alone, and elements that no
call writes are unchanged. A thread that was scheduled often enough has finished. When a thread has finished, its callable and
all elements it writes are as if it had run alone, whatever the others do. -/
theorem concurrent_calls {calls : ι → Alg α} {mem : List α} (hok : ∀ i, (calls i).Ok mem) (hind : Independent calls) :
    ∃ P : ∀ i, List (Instr (calls i).State α), (∀ i, (calls i).program = .ok (P i)) ∧
      ∃ r : ∀ i, (calls i).State × List α, (∀ i, (calls i).alone mem = .ok (r i)) ∧
        ∀ sched, ∃ c, runSchedule sched (start calls P mem) = .ok c ∧ ¬ Race c ∧ c.mem.length = mem.length ∧
          (∀ i a, (calls i).Writes a → c.mem[a]? = mem[a]? ∨ c.mem[a]? = (r i).2[a]?) ∧
          (∀ a, (∀ i, ¬ (calls i).Writes a) → c.mem[a]? = mem[a]?) ∧
          (∀ i, c.prog i = [] ↔ (P i).length ≤ sched.count i) ∧
          (∀ i, c.prog i = [] → (c.loc i).st = (r i).1 ∧ ∀ a, (calls i).Writes a → c.mem[a]? = (r i).2[a]?) := by
  obtain ⟨P, hP⟩ := Classical.skolem.1 fun i => (calls i).facts (hok i)
  obtain ⟨r, hr⟩ := Classical.skolem.1 fun i => (hP i).2
  refine ⟨P, fun i => (hP i).1, r, fun i => (hr i).1, fun sched => ?_⟩
  have hPind : ∀ i j, i ≠ j → ∀ a ∈ storesOf (P i), a ∉ loadsOf (P j) ∧ a ∉ storesOf (P j) := by
    intro i j hij a ha
    have := hind i j hij a (((hr i).2.2.1 a).1 ha)
    exact ⟨fun h => this.1 ((hr j).2.1 a h), fun h => this.2 (((hr j).2.2.1 a).1 h)⟩
  obtain ⟨c, h1, h2⟩ := runSchedule_reach (L := fun i => ⟨(calls i).init, [], []⟩) hPind
    (fun i => ⟨_, (hr i).2.2.2.2⟩) sched
  have hprog (i : ι) : c.prog i = [] ↔ (P i).length ≤ sched.count i := by rw [h2.prog, List.drop_eq_nil_iff]
  refine ⟨c, h1, ?_, h2.len, ?_, ?_, hprog, ?_⟩
  · rintro ⟨i, j, a, hij, hi, hj⟩
    have hsub (k : ι) (x : Instr (calls k).State α) (hx : (c.prog k).head? = some x) : x ∈ P k := by
      rw [h2.prog k] at hx
      exact List.mem_of_mem_drop (List.mem_of_mem_head? hx)
    have hs : ∀ k, Instr.store a ∈ P k → a ∈ storesOf (P k) := by
      intro k hx
      obtain ⟨q1, q2, hq⟩ := List.append_of_mem hx
      rw [hq]; exact mem_stores_cons (by simp [storesOf])
    have hl : ∀ k, Instr.load a ∈ P k → a ∈ loadsOf (P k) := by
      intro k hx
      obtain ⟨q1, q2, hq⟩ := List.append_of_mem hx
      rw [hq]; exact mem_loads_cons (by simp [loadsOf])
    have hna := hPind i j hij a (hs i (hsub i _ hi))
    rcases hj with hj | hj
    · exact hna.1 (hl j (hsub j _ hj))
    · exact hna.2 (hs j (hsub j _ hj))
  · intro i a ha
    obtain ⟨m, g1, g2⟩ := h2.alone i
    rw [g2 a (Or.inr (((hr i).2.2.1 a).2 ha))]
    have hsplit := List.take_append_drop (sched.count i) (P i)
    exact exec_prefix (q := (P i).drop (sched.count i)) g1 (by rw [hsplit]; exact (hr i).2.2.2.2) (by rw [hsplit]; exact (hr i).2.2.2.1) a
  · intro a ha
    exact h2.frame a fun i hx => ha i (((hr i).2.2.1 a).1 hx)
  · intro i hi
    obtain ⟨m, g1, g2⟩ := h2.alone i
    rw [List.take_of_length_le ((hprog i).1 hi), (hr i).2.2.2.2] at g1
    injection g1 with g1
    injection g1 with g3 g4
    refine ⟨by rw [← g3], fun a ha => ?_⟩
    rw [g2 a (Or.inr (((hr i).2.2.1 a).2 ha)), g4]

/-- **C86 (serializability).** When all threads have finished, memory is as if the calls had been made one after the other, in any order. -/
theorem concurrent_calls_serial {calls : ι → Alg α} {mem : List α} (hok : ∀ i, (calls i).Ok mem) (hind : Independent calls) :
    ∃ P : ∀ i, List (Instr (calls i).State α), (∀ i, (calls i).program = .ok (P i)) ∧
      ∀ sched, (∀ i, (P i).length ≤ sched.count i) → ∃ c, runSchedule sched (start calls P mem) = .ok c ∧ (∀ i, c.prog i = []) ∧
        ∀ order : List ι, order.Nodup → (∀ i, i ∈ order) → inSequence calls order mem = .ok c.mem := by
  obtain ⟨P, hP, r, hr, H⟩ := concurrent_calls hok hind
  refine ⟨P, hP, fun sched hs => ?_⟩
  obtain ⟨c, h1, _, h3, _, h5, h6, h7⟩ := H sched
  have hfin (i : ι) : c.prog i = [] := (h6 i).2 (hs i)
  refine ⟨c, h1, hfin, fun order hnd hall => ?_⟩
  suffices G : ∀ (os : List ι) (m : List α), os.Nodup → m.length = mem.length →
      (∀ i ∈ os, ∀ a, (calls i).Reads a ∨ (calls i).Writes a → m[a]? = mem[a]?) →
      ∃ m', inSequence calls os m = .ok m' ∧ m'.length = mem.length ∧ (∀ i ∈ os, ∀ a, (calls i).Writes a → m'[a]? = (r i).2[a]?) ∧
        (∀ a, (∀ i ∈ os, ¬ (calls i).Writes a) → m'[a]? = m[a]?) by
    obtain ⟨m', g1, g2, g3, g4⟩ := G order mem hnd rfl fun _ _ _ _ => rfl
    rw [g1]
    congr 1
    apply List.ext_getElem?
    intro a
    by_cases hw : ∃ i, (calls i).Writes a
    · obtain ⟨i, hi⟩ := hw
      rw [g3 i (hall i) a hi, (h7 i (hfin i)).2 a hi]
    · rw [g4 a fun i _ h => hw ⟨i, h⟩, h5 a fun i h => hw ⟨i, h⟩]
  intro os
  induction os with
  | nil => intro m _ hm _; exact ⟨m, rfl, hm, by simp, fun _ _ => rfl⟩
  | cons i os ih =>
    intro m hnd hm hag
    rw [List.nodup_cons] at hnd
    obtain ⟨Q, q1, ri, q2, q3, q4, _, q6⟩ := (calls i).facts (hok i)
    obtain ⟨Q', q1', ri', q2', q3', q4', _, q6'⟩ := (calls i).facts ((hok i).congr hm)
    rw [q1] at q1'; injection q1' with q1'; subst q1'
    rw [hr i] at q2; injection q2 with q2; subst q2
    have hrw (a : Nat) (h : a ∈ loadsOf Q ∨ a ∈ storesOf Q) : (calls i).Reads a ∨ (calls i).Writes a :=
      h.imp (q3 a) (q4 a).1
    obtain ⟨m1, k1, k2, k3⟩ := exec_agree q6 hm fun a ha => hag i (by simp) a (hrw a ha)
    rw [q6'] at k1
    injection k1 with k1
    injection k1 with _ k1
    have hframe : ∀ a, ¬ (calls i).Writes a → ri'.2[a]? = m[a]? := fun a ha => exec_frame q6' a fun h => ha ((q4' a).1 h)
    obtain ⟨m', g1, g2, g3, g4⟩ := ih ri'.2 hnd.2 (by rw [k1, k2, hm]) (by
      intro j hj a ha
      have hij : i ≠ j := fun h => hnd.1 (h ▸ hj)
      rw [hframe a fun hw => by
        have := hind i j hij a hw
        rcases ha with ha | ha
        · exact this.1 ha
        · exact this.2 ha]
      exact hag j (by simp [hj]) a ha)
    refine ⟨m', ?_, g2, ?_, ?_⟩
    · rw [inSequence, q2', Outcome.bind_ok, g1]
    · intro j hj a ha
      rcases List.mem_cons.1 hj with rfl | hj
      · rw [g4 a fun j' hj' hw => (hind j j' (fun h => hnd.1 (by rw [h]; exact hj')) a ha).2 hw]
        subst k1
        exact k3 a (Or.inr ((q4 a).2 ha))
      · exact g3 j hj a ha
    · intro a ha
      rw [g4 a fun j hj => ha j (by simp [hj]), hframe a (ha i (by simp))]

/-- **C86 (parallel map).** Threads that call `for_each` on pieces of an array, pieces that do not overlap and cover the array, with any
policies and with callables that apply `g` to every lane: when all have finished `g` has been applied to every element, exactly once. -/
theorem parallel_forEach_map {mem : List α} {e : ι → Env} {S : ι → Type} {f : ∀ i, Callable (S i) α} {s : ∀ i, S i} {base n : ι → Nat} {g : α → α}
    (hok : ∀ i, (Alg.forEach (e i) true (S i) (f i) (s i) (base i) (n i)).Ok mem)
    (hg : ∀ i s args, ((f i).call s args).2 = args.map (List.map g))
    (hdis : ∀ i j, i ≠ j → base i + n i ≤ base j ∨ base j + n j ≤ base i)
    (hcov : ∀ a, a < mem.length → ∃ i, base i ≤ a ∧ a < base i + n i) :
    ∃ P : ∀ i, List (Instr (S i) α), (∀ i, forEachProgram (e i) true (f i) (base i) (n i) = .ok (P i)) ∧
      ∀ sched, (∀ i, (P i).length ≤ sched.count i) →
        ∃ c, runSchedule sched ⟨P, fun i => ⟨s i, [], []⟩, mem⟩ = .ok c ∧ (∀ i, c.prog i = []) ∧ c.mem = mem.map g := by
  have hind : Independent fun i => Alg.forEach (e i) true (S i) (f i) (s i) (base i) (n i) := by
    intro i j hij a hw
    simp only [Alg.Writes, Alg.Reads, true_and] at hw ⊢
    have := hdis i j hij
    omega
  obtain ⟨P, hP, r, hr, H⟩ := concurrent_calls hok hind
  refine ⟨P, hP, fun sched hs => ?_⟩
  obtain ⟨c, h1, _, h3, _, _, h6, h7⟩ := H sched
  refine ⟨c, h1, fun i => (h6 i).2 (hs i), ?_⟩
  apply List.ext_getElem?
  intro a
  by_cases ha : a < mem.length
  · obtain ⟨i, hi1, hi2⟩ := hcov a ha
    rw [(h7 i ((h6 i).2 (hs i))).2 a ⟨rfl, hi1, hi2⟩]
    obtain ⟨wf, hce, hpt, hf, hre, has, hm⟩ := hok i
    have hn : (slice mem (base i) (n i)).length = n i := slice_length _ _ _ hm
    obtain ⟨s', hmap⟩ := forEach_map wf hce hpt (f i) g (hg i) (s i) (slice mem (base i) (n i)) (by rw [hn]; exact hf)
      (by rw [hn]; exact hre) (by rw [hn]; exact has)
    have := hr i
    simp only [Alg.alone] at this
    rw [hmap, Outcome.bind_ok] at this
    injection this with this
    rw [← this]
    simp only
    rw [writeAt_get _ _ _ (by omega), List.length_map, hn, if_neg (by omega), if_pos hi2, List.getElem?_map, List.getElem?_map, slice_get,
      if_pos (by omega)]
    congr 2; omega
  · rw [List.getElem?_eq_none (by omega), List.getElem?_eq_none (by simp; omega)]

/-! ### Independence is needed, and can be met -/

/-- A callable that increments every lane. -/
def incr : Callable Nat Nat := ⟨fun s args => (s + 1, args.map (List.map (· + 1))), fun _ _ => by simp [Function.comp_def]⟩

def plainEnv : Env := { exampleEnv with pol := ⟨[]⟩ }

theorem plainEnv_wf : plainEnv.WF := libstdcxx_wf _ (by decide) ⟨2, rfl⟩ rfl (by decide) ⟨[], by decide⟩ (by decide)

theorem plainEnv_reaches (n : Nat) : ReachesAlignment plainEnv n := fun h => absurd h (by decide)

/-- **C86 (independence is needed).** Two concurrent calls of `for_each` that increment the same element: there is a data race, and an update
can be lost. -/
theorem overlapping_calls_lose_updates :
    ∃ (calls : Bool → Alg Nat) (mem : List Nat), (∀ i, (calls i).Ok mem) ∧
      ∃ P : ∀ i, List (Instr (calls i).State Nat), (∀ i, (calls i).program = .ok (P i)) ∧
        (∃ sched c, runSchedule sched (start calls P mem) = .ok c ∧ Race c) ∧
        (∃ sched c, runSchedule sched (start calls P mem) = .ok c ∧ (∀ i, c.prog i = []) ∧ c.mem = [1]) ∧
        inSequence calls [false, true] mem = .ok [2] ∧ inSequence calls [true, false] mem = .ok [2] := by
  let prog : List (Instr Nat Nat) :=
    [.load 0, .call fun s xs => let r := incr.call s (cut 1 1 xs); (r.1, if true then r.2.flatten else []), .store 0]
  have hprog : forEachProgram plainEnv true incr 0 1 = .ok prog := by
    unfold forEachProgram
    rw [ForEach.forEachG_trace plainEnv_wf rfl (by unfold Env.Fits; decide) (Or.inr (by decide)) (by intro h; revert h; decide)
      (by intro h; revert h; decide)]
    rfl
  refine ⟨fun _ => .forEach plainEnv true Nat incr 0 0 1, [0], fun _ => ⟨plainEnv_wf, rfl, rfl, by unfold Env.Fits; decide,
    plainEnv_reaches 1, by intro h; revert h; decide, by decide⟩, fun _ => prog, fun _ => hprog, ?_, ?_, ?_, ?_⟩
  · exact ⟨[false, true, false, true], _, rfl, false, true, 0, by decide, rfl, Or.inr rfl⟩
  · exact ⟨[false, true, false, true, false, true], _, rfl, by intro i; cases i <;> rfl, rfl⟩
  · decide +kernel
  · decide +kernel

/-- Two neighbouring pieces of an array and a `transform` that reads what nobody writes. -/
def exampleCalls : Fin 3 → Alg Nat
  | 0 => .forEach plainEnv true Nat incr 0 0 11
  | 1 => .forEach { plainEnv with pol := ⟨[.unrollBy 2]⟩ } true Nat incr 0 11 12
  | 2 => .transform ⟨plainEnv, [23, 30], 40, 7⟩ sumOp

-- the hypotheses are met
private theorem exampleCalls_ok : (∀ i, (exampleCalls i).Ok (List.range 50)) ∧ Independent exampleCalls := by
  constructor
  · intro i
    match i with
    | 0 => exact ⟨plainEnv_wf, rfl, rfl, by unfold Env.Fits; decide, plainEnv_reaches _, by intro h; revert h; decide, by decide⟩
    | 1 => exact ⟨libstdcxx_wf _ (by decide) ⟨2, rfl⟩ rfl (by decide) ⟨[.unrollBy 2], by decide⟩ (by decide), rfl, rfl,
        by unfold Env.Fits; decide, fun h => absurd h (by decide), by intro h; revert h; decide, by decide⟩
    | 2 => exact ⟨plainEnv_wf, rfl, rfl, by unfold Env.Fits; decide, plainEnv_reaches _, by intro h; revert h; decide,
        by decide, by decide, by decide, by decide⟩
  · intro i j hij a hw
    match i, j with
    | 0, 0 => exact absurd rfl hij
    | 1, 1 => exact absurd rfl hij
    | 2, 2 => exact absurd rfl hij
    | 0, 1 | 0, 2 | 1, 0 | 1, 2 | 2, 0 | 2, 1 =>
      simp only [exampleCalls, Alg.Writes, Alg.Reads, List.mem_cons, List.not_mem_nil, or_false, exists_eq_or_imp, exists_eq_left, true_and] at hw ⊢
      omega

-- and what they do one after the other, in two orders
example : inSequence exampleCalls [0, 1, 2] (List.range 50) = inSequence exampleCalls [2, 0, 1] (List.range 50) ∧
    inSequence exampleCalls [0, 1, 2] (List.range 50) = .ok ((List.range 50).map fun i =>
      if i < 23 then i + 1 else if 40 ≤ i ∧ i < 47 then (i - 17) + (i - 10) else i) := by decide +kernel

-- the pieces of `parallel_forEach_map`
example : (∀ a, a < (List.range 23).length → ∃ i : Bool, (if i then 11 else 0) ≤ a ∧ a < (if i then 11 else 0) + (if i then 12 else 11)) := by
  intro a ha
  simp at ha
  by_cases h : a < 11
  · exact ⟨false, by simp; omega⟩
  · exact ⟨true, by simp; omega⟩

/-! ## The theorems applied to concrete data -/

private def exampleParts (k : Bool) : Nat × Nat := if k then (11, 12) else (0, 11)

private theorem exampleParts_ok (k : Bool) :
    (Alg.forEach plainEnv true Nat incr 0 (exampleParts k).1 (exampleParts k).2).Ok (List.range 23) := by
  cases k <;> exact ⟨plainEnv_wf, rfl, rfl, by unfold Env.Fits; decide, plainEnv_reaches _, by intro h; revert h; decide, by decide⟩

example := forEach_accesses exampleEnv_wf rfl rfl (n := 23) (by unfold Env.Fits; decide) (fun _ _ _ _ => Or.inr ⟨3, by decide, by decide⟩)
  (by intro h; revert h; decide) true incr 0 5 (List.range 30) (by decide)
example := transform_accesses (t := exampleT [.unrollBy 2]) (mem := List.range 23) ⟨by decide, by decide, by decide, by decide⟩
  (libstdcxx_wf _ (by decide) ⟨2, rfl⟩ rfl (by decide) ⟨[.unrollBy 2], by decide⟩ (by decide)) rfl rfl (show 11 * 4 < 2 ^ 64 by decide)
  (fun h => absurd h (by decide)) (by decide) sumOp
example := concurrent_calls exampleCalls_ok.1 exampleCalls_ok.2
example := concurrent_calls_serial exampleCalls_ok.1 exampleCalls_ok.2
example := parallel_forEach_map exampleParts_ok (g := (· + 1)) (fun _ _ _ => rfl)
  (by intro i j; cases i <;> cases j <;> simp [exampleParts])
  (by
    intro a ha
    simp only [List.length_range] at ha
    by_cases h : a < 11
    · exact ⟨false, by simp [exampleParts]; omega⟩
    · exact ⟨true, by simp [exampleParts]; omega⟩)

end Vir.Threads
