import Verif.Lemmas.ForEachConst
import Verif.Props.Platform

/-!
# C01–C09, C47: `vir::for_each`

`logged f` is an arbitrary callable `f` instrumented to record its invocations; `visited`, `produced` and
`shapes` read the record (`Verif/Spec/Calls.lean`). Undefined behaviour is `Outcome.ub`, so every theorem that
concludes `= .ok _` also says that no access leaves the range or violates an alignment promise.
-/

namespace Vir
open Spec ForEach

variable {σ α : Type}

/-- **C01.** Every element is passed to the callable exactly once and in order. -/
theorem forEach_visits_once {e : Env} (wf : e.WF) (hce : e.constEval = false) (hpt : e.strictPtr = false)
    (wb : Bool) (f : Callable σ α) (s : σ) (xs : List α) (hf : e.Fits xs.length)
    (hr : ReachesAlignment e xs.length) (ha : e.pol.assumeMatchingSize = true → e.size ∣ xs.length) :
    ∃ s' log ys, forEach e wb (logged f) (s, []) xs = .ok ((s', log), ys) ∧ visited log = xs ∧
      forEach e wb f s xs = .ok (s', ys) := by
  have hp := (reaches_iff wf).1 hr
  have hst : e.strictPtr = true → xs.length = 0 ∨
      (e.size ≤ xs.length ∧ (1 < e.pol.unrollBy → e.size * unroll e ≤ xs.length)) := by simp [hpt]
  refine ⟨(run f wb (callsOf e xs.length) s xs).1, eventsOf f (callsOf e xs.length) s xs,
    (run f wb (callsOf e xs.length) s xs).2, ?_, ?_, forEach_eq_run wf hce hf hp hst ha wb f s xs rfl⟩
  · rw [forEach_eq_run wf hce hf hp hst ha wb (logged f) (s, []) xs rfl, run_logged, List.nil_append]
  · rw [visited_eventsOf, elems_callsOf wf.size_pos hp, List.take_length]

/-- **C02.** With write-back the range ends up holding exactly what the callable left in its arguments, piece by
piece in place. -/
theorem forEach_writes_back {e : Env} (wf : e.WF) (hce : e.constEval = false) (hpt : e.strictPtr = false)
    (f : Callable σ α) (s : σ) (xs : List α) (hf : e.Fits xs.length)
    (hr : ReachesAlignment e xs.length) (ha : e.pol.assumeMatchingSize = true → e.size ∣ xs.length) :
    ∃ s' log, forEach e true (logged f) (s, []) xs = .ok ((s', log), produced log) ∧ visited log = xs ∧
      (∀ ev ∈ log, ev.results.map List.length = ev.args.map List.length) ∧
      forEach e true f s xs = .ok (s', produced log) := by
  have hp := (reaches_iff wf).1 hr
  have hst : e.strictPtr = true → xs.length = 0 ∨
      (e.size ≤ xs.length ∧ (1 < e.pol.unrollBy → e.size * unroll e ≤ xs.length)) := by simp [hpt]
  have hel := elems_callsOf wf.size_pos hp
  refine ⟨(run f true (callsOf e xs.length) s xs).1, eventsOf f (callsOf e xs.length) s xs, ?_, ?_, ?_, ?_⟩
  · rw [forEach_eq_run wf hce hf hp hst ha true (logged f) (s, []) xs rfl, run_logged,
      produced_eventsOf _ _ _ _ hel, List.nil_append]
  · rw [visited_eventsOf, hel, List.take_length]
  · intro ev hev
    have : ∀ (cs : List Call) s (xs : List α), ev ∈ eventsOf f cs s xs →
        ev.results.map List.length = ev.args.map List.length := by
      intro cs
      induction cs with
      | nil => intro s xs h; simp [eventsOf] at h
      | cons c cs ih =>
        intro s xs h
        simp only [eventsOf, List.mem_cons] at h
        rcases h with h | h
        · subst h; exact f.shape _ _
        · exact ih _ _ h
    exact this _ _ _ hev
  · rw [forEach_eq_run wf hce hf hp hst ha true f s xs rfl, produced_eventsOf _ _ _ _ hel]

/-- **C02 (lane-wise callables).** A callable that applies `g` to every lane maps the range. -/
theorem forEach_map {e : Env} (wf : e.WF) (hce : e.constEval = false) (hpt : e.strictPtr = false)
    (f : Callable σ α) (g : α → α) (hg : ∀ s args, (f.call s args).2 = args.map (List.map g)) (s : σ)
    (xs : List α) (hf : e.Fits xs.length)
    (hr : ReachesAlignment e xs.length) (ha : e.pol.assumeMatchingSize = true → e.size ∣ xs.length) :
    ∃ s', forEach e true f s xs = .ok (s', xs.map g) := by
  have hp := (reaches_iff wf).1 hr
  have hst : e.strictPtr = true → xs.length = 0 ∨
      (e.size ≤ xs.length ∧ (1 < e.pol.unrollBy → e.size * unroll e ≤ xs.length)) := by simp [hpt]
  refine ⟨(run f true (callsOf e xs.length) s xs).1, ?_⟩
  rw [forEach_eq_run wf hce hf hp hst ha true f s xs rfl,
    ← run_map f g hg _ s xs (elems_callsOf wf.size_pos hp)]

/-- **C03.** Without write-back the range is unchanged, whatever the callable does with its copies. -/
theorem forEach_no_write {e : Env} (wf : e.WF) (hce : e.constEval = false) (hpt : e.strictPtr = false)
    (f : Callable σ α) (s : σ) (xs : List α) (hf : e.Fits xs.length)
    (hr : ReachesAlignment e xs.length) (ha : e.pol.assumeMatchingSize = true → e.size ∣ xs.length) :
    ∃ s', forEach e false f s xs = .ok (s', xs) := by
  have hp := (reaches_iff wf).1 hr
  have hst : e.strictPtr = true → xs.length = 0 ∨
      (e.size ≤ xs.length ∧ (1 < e.pol.unrollBy → e.size * unroll e ≤ xs.length)) := by simp [hpt]
  refine ⟨(run f false (callsOf e xs.length) s xs).1, ?_⟩
  rw [forEach_eq_run wf hce hf hp hst ha false f s xs rfl]
  congr 1
  rw [Prod.ext_iff]
  exact ⟨rfl, run_false_snd _ _ _ _ (Nat.le_of_eq (elems_callsOf wf.size_pos hp))⟩

/-- **C07 (precondition).** With `assume_matching_size` a range whose size is not a multiple of the width
traps, before anything else happens. -/
theorem forEach_assume_traps {e : Env} (ha : e.pol.assumeMatchingSize = true) (wb : Bool) (f : Callable σ α)
    (s : σ) (xs : List α) (hn : ¬ e.size ∣ xs.length) : forEach e wb f s xs = .trap := by
  have h0 : xs.length ≠ 0 := by intro h; rw [h] at hn; exact hn (Nat.dvd_zero _)
  have h1 : xs.length % e.size ≠ 0 := fun h => hn (Nat.dvd_of_mod_eq_zero h)
  simp [forEach, h0, ha, h1]

/-- **C04.** `for_each` never has undefined behaviour, except that with `prefer_aligned` a non-empty range must
contain (or end at) an aligned position; without that its behaviour is always undefined. -/
theorem forEach_defined_iff {e : Env} (wf : e.WF) (hce : e.constEval = false) (hpt : e.strictPtr = false)
    (wb : Bool) (f : Callable σ α) (s : σ) (xs : List α) (hf : e.Fits xs.length) :
    (forEach e wb f s xs).Defined ↔ ReachesAlignment e xs.length := by
  constructor
  · intro hd
    rw [reaches_iff wf]
    by_cases hu : useAligned e = true
    · by_cases hm : misalignedBytes e = 0
      · right; simp [proCount, hu, hm]
      · by_cases hn : xs.length = 0
        · exact Or.inl hn
        · right
          have : proCount e xs.length = toProcess e := by simp [proCount, hu, hm]
          rw [this]
          apply Nat.le_of_not_lt
          intro hlt
          obtain ⟨r, hr⟩ := forEach_ub_of_short wf hce hu hm hn hlt wb f s xs rfl
          rw [hr] at hd
          exact hd
    · have : ReachesAlignment e xs.length := by
        intro ha hb hc hd
        exfalso; apply hu
        simp only [useAligned, ha, Bool.true_and]
        exact (prologuePossible_iff e).2 ⟨hb, hc, hd⟩
      exact (reaches_iff wf).1 this
  · intro hr
    by_cases ha : e.pol.assumeMatchingSize = true ∧ ¬ e.size ∣ xs.length
    · rw [forEach_assume_traps ha.1 wb f s xs ha.2]; trivial
    · obtain ⟨s', log, ys, _, _, h⟩ := forEach_visits_once wf hce hpt wb f s xs hf hr
        (fun h => Classical.byContradiction fun h' => ha ⟨h, h'⟩)
      rw [h]; trivial

/-- **C04 (no `prefer_aligned`).** All other policies are safe on all ranges. -/
theorem forEach_safe {e : Env} (wf : e.WF) (hce : e.constEval = false) (hpt : e.strictPtr = false)
    (hpol : e.pol.prefersAligned = false) (wb : Bool) (f : Callable σ α) (s : σ) (xs : List α)
    (hf : e.Fits xs.length) : (forEach e wb f s xs).Defined :=
  (forEach_defined_iff wf hce hpt wb f s xs hf).2 (fun h => by rw [hpol] at h; simp at h)

/-- **C05 (the unrestricted claim is false).** There is a platform, a policy with `prefer_aligned` and a
one-element range on which `for_each` has undefined behaviour: it reads past the end of the range. -/
theorem forEach_preferAligned_unsafe :
    ∃ e : Env, e.WF ∧ e.constEval = false ∧ e.strictPtr = false ∧ e.pol = ⟨[.preferAligned]⟩ ∧
      ∃ xs : List Nat, e.Fits xs.length ∧
        forEach e false (⟨fun s args => (s, args), fun _ _ => rfl⟩ : Callable Unit Nat) () xs = .ub .oob := by
  refine ⟨{ exampleEnv with pol := ⟨[.preferAligned]⟩ }, ?_, rfl, rfl, rfl, [7], ?_, ?_⟩
  · exact libstdcxx_wf _ (by decide) ⟨2, rfl⟩ rfl (by decide) ⟨[.preferAligned], by decide⟩ (by decide)
  · unfold Env.Fits; decide
  · decide +kernel

/-- **C05 (what holds instead).** With `prefer_aligned`, ranges of at least as many elements as one full vector
are always safe. -/
theorem forEach_preferAligned_partial {e : Env} (wf : e.WF) (hce : e.constEval = false)
    (hpt : e.strictPtr = false) (wb : Bool) (f : Callable σ α) (s : σ) (xs : List α) (hf : e.Fits xs.length)
    (hn : e.size ≤ xs.length) : (forEach e wb f s xs).Defined := by
  rw [forEach_defined_iff wf hce hpt wb f s xs hf, reaches_iff wf]
  right
  rcases proCount_cases e xs.length with h | ⟨h1, h2, h3⟩
  · omega
  · obtain ⟨K, hK⟩ := proInfo wf h1
    have := hK.le_size
    have := hK.tp_le
    omega

/-- **C06.** The simd arguments of the invocations: first a prologue of single, ever wider power-of-two
arguments, then the unrolled loop with `unroll_by` full-width arguments per call, then full-width single
arguments, then an epilogue of single, ever narrower power-of-two arguments, all narrower than the full width. -/
theorem forEach_shapes {e : Env} (wf : e.WF) (hce : e.constEval = false) (hpt : e.strictPtr = false)
    (wb : Bool) (f : Callable σ α) (s : σ) (xs : List α) (hf : e.Fits xs.length)
    (hr : ReachesAlignment e xs.length) (ha : e.pol.assumeMatchingSize = true → e.size ∣ xs.length) :
    ∃ (s' : σ) (log : List (Event α)) (ys : List α) (pro : List Nat) (q1 q2 : Nat) (epi : List Nat),
      forEach e wb (logged f) (s, []) xs = .ok ((s', log), ys) ∧
      shapes log = pro.map (fun w => [w]) ++ List.replicate q1 (List.replicate e.pol.unrollBy.toNat e.size) ++
        List.replicate q2 [e.size] ++ epi.map (fun w => [w]) ∧
      pro.Pairwise (· < ·) ∧ (∀ w ∈ pro, (∃ j, w = 2 ^ j) ∧ w < e.size) ∧
      epi.Pairwise (· > ·) ∧ (∀ w ∈ epi, (∃ j, w = 2 ^ j) ∧ w < e.size) ∧
      (e.pol.prefersAligned = false → e.pol.autoPrologue = false → pro = []) ∧
      (e.pol.unrollBy ≤ 1 → q1 = 0) ∧ (1 < e.pol.unrollBy → (q2 : Int) < e.pol.unrollBy) := by
  have hp := (reaches_iff wf).1 hr
  have hst : e.strictPtr = true → xs.length = 0 ∨
      (e.size ≤ xs.length ∧ (1 < e.pol.unrollBy → e.size * unroll e ≤ xs.length)) := by simp [hpt]
  have hlog := forEach_eq_run wf hce hf hp hst ha wb (logged f) (s, []) xs rfl
  rw [run_logged] at hlog
  by_cases hn0 : xs.length = 0
  · refine ⟨_, _, _, [], 0, 0, [], hlog, ?_, by simp, by simp, by simp, by simp, by simp, by simp, by simp; omega⟩
    simp [callsOf, hn0, eventsOf, shapes]
  have hp' : proCount e xs.length ≤ xs.length := by omega
  have hsize := wf.size_pos
  generalize hP : proCount e xs.length = p at hp'
  have hmemP : ∀ w ∈ bitsAsc p, (∃ j, w = 2 ^ j) ∧ w < e.size := by
    intro w hw
    rcases proCount_cases e xs.length with h | ⟨h1, h2, h3⟩
    · rw [hP] at h; rw [h] at hw; simp at hw
    · obtain ⟨K, hK⟩ := proInfo wf h1
      have hlt := hK.tp_lt h2
      rw [← h3, hP] at hlt
      obtain ⟨j, _, _, rfl, hb⟩ := mem_ascBits hw
      have := Nat.ge_two_pow_of_testBit hb
      have := hK.le_size
      exact ⟨⟨j, rfl⟩, by omega⟩
  refine ⟨_, _, _, bitsAsc p, unrolledIters e (xs.length - p),
    (xs.length - p - unrolledIters e (xs.length - p) * (e.size * unroll e)) / e.size,
    bitsDesc ((xs.length - p) % e.size), hlog, ?_, ascBits_pairwise _ _ _, hmemP, descBits_pairwise _ _, ?_,
    ?_, ?_, ?_⟩
  · rw [List.nil_append, shapes_eventsOf _ _ _ _ (Nat.le_of_eq (elems_callsOf wf.size_pos hp))]
    unfold callsOf
    rw [if_neg hn0, hP]
    simp [singles, unroll, Function.comp_def]
  · intro w hw
    obtain ⟨j, _, rfl, hb⟩ := mem_descBits hw
    have := Nat.ge_two_pow_of_testBit hb
    have := Nat.mod_lt (xs.length - p) hsize
    exact ⟨⟨j, rfl⟩, by omega⟩
  · intro h1 h2
    have : p = 0 := by rw [← hP]; simp [proCount, useAligned, maybeAnyway, h1, h2]
    rw [this]; simp
  · intro h; simp [unrolledIters, show ¬ e.pol.unrollBy > 1 by omega]
  · intro h
    simp only [unrolledIters, gt_iff_lt, h, if_true]
    generalize xs.length - p = m
    have hU : 0 < unroll e := by unfold unroll; omega
    have hstep : 0 < e.size * unroll e := Nat.mul_pos hsize hU
    have h1 : m - m / (e.size * unroll e) * (e.size * unroll e) < e.size * unroll e := by
      have h2 := Nat.div_add_mod m (e.size * unroll e)
      have h3 := Nat.mod_lt m hstep
      rw [Nat.mul_comm] at h2
      omega
    have h4 := (Nat.div_lt_iff_lt_mul hsize).2 (by rw [Nat.mul_comm]; exact h1)
    unfold unroll at h4 ⊢
    omega

/-- **C07 (matching size).** With `assume_matching_size` and a matching size, every argument of every
invocation has exactly the full width, and all elements are processed. -/
theorem forEach_assume_full_width {e : Env} (wf : e.WF) (hce : e.constEval = false)
    (hpt : e.strictPtr = false) (ha : e.pol.assumeMatchingSize = true) (wb : Bool) (f : Callable σ α) (s : σ)
    (xs : List α) (hf : e.Fits xs.length) (hd : e.size ∣ xs.length) :
    ∃ s' log ys, forEach e wb (logged f) (s, []) xs = .ok ((s', log), ys) ∧ visited log = xs ∧
      ∀ sh ∈ shapes log, ∀ w ∈ sh, w = e.size := by
  have hpa : e.pol.prefersAligned = false := by
    cases h : e.pol.prefersAligned
    · rfl
    · have := (wf.pol_reachable.inv.pa h).2; rw [ha] at this; simp at this
  have hr : ReachesAlignment e xs.length := fun h => by rw [hpa] at h; simp at h
  have hp := (reaches_iff wf).1 hr
  have hst : e.strictPtr = true → xs.length = 0 ∨
      (e.size ≤ xs.length ∧ (1 < e.pol.unrollBy → e.size * unroll e ≤ xs.length)) := by simp [hpt]
  have hlog := forEach_eq_run wf hce hf hp hst (fun _ => hd) wb (logged f) (s, []) xs rfl
  rw [run_logged, List.nil_append] at hlog
  refine ⟨_, _, _, hlog, ?_, ?_⟩
  · rw [visited_eventsOf, elems_callsOf wf.size_pos hp, List.take_length]
  · rw [shapes_eventsOf _ _ _ _ (Nat.le_of_eq (elems_callsOf wf.size_pos hp))]
    intro sh hsh w hw
    simp only [List.mem_map] at hsh
    obtain ⟨c, hc, rfl⟩ := hsh
    unfold callsOf at hc
    rw [proCount_assume wf _ ha] at hc
    split at hc
    · simp at hc
    · simp only [bitsAsc_zero, singles_nil, List.nil_append, Nat.sub_zero, Nat.mod_eq_zero_of_dvd hd, bitsDesc_zero,
        List.append_nil, List.mem_append] at hc
      rcases hc with h | h
      · rw [(List.mem_replicate.1 h).2] at hw
        exact (List.mem_replicate.1 hw).2
      · rw [(List.mem_replicate.1 h).2] at hw
        exact (List.mem_replicate.1 hw).2

/-- **C08 (whole algorithm).** Builds that use the jump tables and builds that use the recursive templates
(`-Os`) behave identically: same invocations, same results, for every callable and every range. -/
theorem forEach_jumptable_irrelevant {e : Env} (wf : e.WF) (hce : e.constEval = false)
    (hpt : e.strictPtr = false) (wb : Bool) (f : Callable σ α) (s : σ) (xs : List α) (hf : e.Fits xs.length)
    (hr : ReachesAlignment e xs.length) (ha : e.pol.assumeMatchingSize = true → e.size ∣ xs.length) :
    forEach { e with optSize := true } wb f s xs = forEach { e with optSize := false } wb f s xs := by
  have hp := (reaches_iff wf).1 hr
  have go : ∀ b, forEach { e with optSize := b } wb f s xs = .ok (run f wb (callsOf e xs.length) s xs) := by
    intro b
    have wf' : Env.WF { e with optSize := b } :=
      ⟨wf.size_pos, wf.sz_pos, wf.al_pos, wf.al_natural, wf.al_mono, wf.al_pow, wf.al_le, wf.addr_dvd,
        wf.pol_reachable⟩
    exact forEach_eq_run wf' hce hf hp (by simp [hpt]) ha wb f s xs rfl
  rw [go, go]

/-- **C08 (epilogue).** For every width (also beyond 64, where no table exists), every number of leftover
elements the epilogue can be called with and every callable, the build with jump table and the recursive
build (`-Os`) produce the same result, and it consists of one invocation per set bit of `leftover`, widest
first. -/
theorem epilogue_jumptable_eq (e : Env) (wb : Bool) (f : Callable σ α) (v0 l : Nat) (h1 : 1 < v0) (hl : l < v0)
    (hl0 : 0 < l) (s : σ) (before xs : List α) (hx : xs.length = l) (b : Bool) :
    epilogue { e with optSize := b } wb f v0 l ((before ++ xs).length : Nat) false (s, before ++ xs) =
      .ok ((run f wb ((bitsDesc l).map (⟨·, 1⟩)) s xs).1,
        before ++ (run f wb ((bitsDesc l).map (⟨·, 1⟩)) s xs).2) := by
  obtain ⟨K, hK, hK1, hK2⟩ := stdBitCeil_spec h1
  exact does_epilogue { e with optSize := b } wb f K v0 l (before ++ xs).length false hK1 hK2 hl
    (Or.inl (by omega)) (by simp; omega) (by simp) s before xs (by simp; omega) (by simp; omega)

/-- **C08 (prologue).** The same for the prologue: for every instantiated maximum `2^K` and every number of
elements `tp` below it, both builds perform one invocation per set bit of `tp`, narrowest first. -/
theorem prologue_jumptable_eq (e : Env) (wb : Bool) (f : Callable σ α) (K tp : Nat) (hK : 0 < K) (h0 : 0 < tp)
    (ht : tp < 2 ^ K) (hal : ∀ p w, alignedAt e p w = true) (s : σ) (xs : List α) (hx : tp ≤ xs.length)
    (b : Bool) :
    prologueRec { e with optSize := b } wb f (2 ^ K) tp 0 0 (s, xs) =
      .ok (run f wb ((bitsAsc tp).map (⟨·, 1⟩)) s xs) := by
  have hs : ∀ ws p, AlignedSeq { e with optSize := b } p ws := by
    intro ws
    induction ws with
    | nil => intro p; trivial
    | cons w ws ih => intro p; exact ⟨hal p w, ih _⟩
  have := does_prologueRec { e with optSize := b } wb f K tp xs.length hK (by omega) ht (hs _ _) hx s [] xs rfl
    (by simp)
  simpa [singles] using this

/-- The prologue table has a row that breaks the pattern (`VIR_CASE(38, 34)`, `simd_execution.h` 146): from 38
elements the chunks would be 4, 2, 32 instead of 2, 4, 32. The row is unreachable: the table is only
instantiated for maxima below 64, i.e. at most 32. -/
theorem prologueTable_row38 : tableWidths prologueTable 39 38 = some [4, 2, 32] ∧ bitsAsc 38 = [2, 4, 32] := by
  decide +kernel

/-- **C09 (partial).** During constant evaluation, too, every element is visited exactly once and in order,
provided the width is not 2 or the length is odd. -/
theorem constForEach_visits_once_partial {e : Env} (hs : 0 < e.size) (hce : e.constEval = true)
    (hpt : e.strictPtr = false) (wb : Bool) (f : Callable σ α) (s : σ) (xs : List α)
    (h2 : e.size ≠ 2 ∨ xs.length % 2 = 1) (ha : e.pol.assumeMatchingSize = true → e.size ∣ xs.length) :
    ∃ s' log ys, forEach e wb (logged f) (s, []) xs = .ok ((s', log), ys) ∧ visited log = xs ∧
      (ys = if wb then produced log else xs) ∧ forEach e wb f s xs = .ok (s', ys) := by
  have hel := elems_constCallsOf e xs.length
  refine ⟨(run f wb (constCallsOf e xs.length) s xs).1, eventsOf f (constCallsOf e xs.length) s xs,
    (run f wb (constCallsOf e xs.length) s xs).2, ?_, ?_, ?_,
    constForEach_eq_run hs hce (by simp [hpt]) (Or.inr h2) ha wb f s xs rfl⟩
  · rw [constForEach_eq_run hs hce (by simp [hpt]) (Or.inr h2) ha wb (logged f) (s, []) xs rfl, run_logged, List.nil_append]
  · rw [visited_eventsOf, hel, List.take_length]
  · cases wb with
    | true => rw [produced_eventsOf _ _ _ _ hel]; rfl
    | false => simp only [Bool.false_eq_true, if_false]; exact run_false_snd _ _ _ _ (Nat.le_of_eq hel)

/-- **C09 (the unrestricted claim is false, exactly in the excluded case).** With width 2 and a non-zero even
length the constant-evaluated `for_each` visits the whole range and then the last element once more. -/
theorem constForEach_width2_visits_last_twice {e : Env} (h2 : e.size = 2) (hce : e.constEval = true)
    (hpt : e.strictPtr = false) (f : Callable σ α) (s : σ) (xs : List α) (hn : xs.length ≠ 0)
    (hev : xs.length % 2 = 0) :
    ∃ s' log last, forEach e false (logged f) (s, []) xs = .ok ((s', log), xs) ∧
      xs = xs.dropLast ++ [last] ∧ visited log = xs ++ [last] := by
  obtain ⟨last, hl, h⟩ := constForEach_width2 h2 hce hpt hn hev (logged f) (s, []) xs rfl
  rw [run_logged] at h
  refine ⟨_, _, last, h, hl, ?_⟩
  have hel : elems (List.replicate (xs.length / 2) (⟨2, 1⟩ : Call)) = xs.length := by
    simp [Call.elems]; omega
  have := visited_eventsOf f (List.replicate (xs.length / 2) ⟨2, 1⟩) s xs
  rw [hel, List.take_length] at this
  simp only [visited] at this ⊢
  simp only [List.nil_append]
  simp [this]

/-- A concrete instance of the failure: incrementing `{1, 2, 3, 4}` by ten with width 2 during constant
evaluation gives `{11, 12, 13, 24}`. -/
theorem constForEach_not_map : ∃ e : Env, e.WF ∧ e.constEval = true ∧ e.strictPtr = false ∧
    forEach e true (⟨fun s args => (s, args.map (List.map (· + 10))), fun _ _ => by simp [Function.comp_def]⟩ :
      Callable Unit Nat) () [1, 2, 3, 4] = .ok ((), [11, 12, 13, 24]) := by
  refine ⟨{ exampleEnv with size := 2, pol := ⟨[.size 2]⟩, constEval := true }, ?_, rfl, rfl, ?_⟩
  · exact libstdcxx_wf _ (by decide) ⟨2, rfl⟩ rfl (by decide) ⟨[.preferSize 2], by decide⟩ (by decide)
  · decide +kernel

/-- **C47 (pointers).** If forming a pointer outside the range counts as undefined (ISO C++, range = whole
array), `for_each` at run time is defined on a non-empty range exactly if the range is at least as long as one
(unrolled) iteration: the code computes `last - size` and `last - size * unroll_by` unconditionally. -/
theorem forEach_strict_defined_iff {e : Env} (wf : e.WF) (hce : e.constEval = false)
    (hpt : e.strictPtr = true) (wb : Bool) (f : Callable σ α) (s : σ) (xs : List α) (hf : e.Fits xs.length)
    (hr : ReachesAlignment e xs.length) (hn : xs.length ≠ 0)
    (ha : e.pol.assumeMatchingSize = true → e.size ∣ xs.length) :
    (forEach e wb f s xs).Defined ↔
      (e.size ≤ xs.length ∧ (1 < e.pol.unrollBy → e.size * e.pol.unrollBy.toNat ≤ xs.length)) := by
  have hp := (reaches_iff wf).1 hr
  constructor
  · intro hd
    have hassume : (e.pol.assumeMatchingSize && xs.length % e.size != 0) = false := by
      cases h : e.pol.assumeMatchingSize
      · rfl
      · simp [Nat.mod_eq_zero_of_dvd (ha h)]
    unfold forEach at hd
    simp only [hn, if_false, hassume, Bool.false_eq_true, hce] at hd
    rw [runPrologue_eq wf hf (by omega) wb f s xs rfl] at hd
    simp only [Outcome.bind_ok] at hd
    have key : ∀ k : Nat, (k : Int) > xs.length → subPtr e (xs.length : Nat) k = .ub .badPointer := by
      intro k hk
      unfold subPtr
      rw [if_pos]
      simp [hpt]; omega
    have h2 : 1 < e.pol.unrollBy → e.size * e.pol.unrollBy.toNat ≤ xs.length := by
      intro hu
      apply Nat.le_of_not_lt
      intro hlt
      unfold unrolledLoop at hd
      rw [if_pos hu] at hd
      simp only [key (e.size * e.pol.unrollBy.toNat) (by omega), Outcome.bind_ub] at hd
      exact hd
    refine ⟨?_, h2⟩
    apply Nat.le_of_not_lt
    intro hlt
    have hu : ¬ e.pol.unrollBy > 1 := by
      intro hu
      have := h2 hu
      have : e.size * 1 ≤ e.size * e.pol.unrollBy.toNat := Nat.mul_le_mul_left _ (by omega)
      omega
    unfold unrolledLoop at hd
    rw [if_neg hu] at hd
    simp only [Outcome.bind_ok] at hd
    rw [key _ (by omega)] at hd
    exact hd
  · intro h
    rw [forEach_eq_run wf hce hf hp (fun _ => Or.inr h) ha wb f s xs rfl]
    trivial

/-! ### The hypotheses are satisfiable -/

-- a range of 23 elements that needs a prologue of 3 elements, an unrolled loop and an epilogue
example : exampleEnv.WF ∧ exampleEnv.constEval = false ∧ exampleEnv.strictPtr = false ∧
    exampleEnv.Fits (List.range 23).length ∧ ReachesAlignment exampleEnv (List.range 23).length ∧
    (exampleEnv.pol.assumeMatchingSize = true → exampleEnv.size ∣ (List.range 23).length) :=
  ⟨exampleEnv_wf, rfl, rfl, by unfold Env.Fits; decide,
    fun _ _ _ _ => Or.inr ⟨3, by decide, by decide⟩, by intro h; revert h; decide⟩

-- what the theorems say about it, computed: prologue 1, 2; unrolled 4+4, 4+4; loop 4
example : forEach exampleEnv true
    (logged ⟨fun s args => (s + 1, args.map (List.map (· + 100))), fun _ _ => by simp [Function.comp_def]⟩)
    (0, []) (List.range 23) =
    .ok ((5, [⟨[[0]], [[100]]⟩, ⟨[[1, 2]], [[101, 102]]⟩,
      ⟨[[3, 4, 5, 6], [7, 8, 9, 10]], [[103, 104, 105, 106], [107, 108, 109, 110]]⟩,
      ⟨[[11, 12, 13, 14], [15, 16, 17, 18]], [[111, 112, 113, 114], [115, 116, 117, 118]]⟩,
      ⟨[[19, 20, 21, 22]], [[119, 120, 121, 122]]⟩]), (List.range 23).map (· + 100)) := by
  decide +kernel

-- an environment with assume_matching_size
def exampleEnvAssume : Env := { exampleEnv with pol := ⟨[.assumeMatchingSize]⟩ }
example : exampleEnvAssume.WF ∧ exampleEnvAssume.pol.assumeMatchingSize = true ∧
    exampleEnvAssume.size ∣ (List.range 8).length ∧ ¬ exampleEnvAssume.size ∣ (List.range 9).length :=
  ⟨libstdcxx_wf _ (by decide) ⟨2, rfl⟩ rfl (by decide) ⟨[.assumeMatchingSize], by decide⟩ (by decide),
    by decide, by decide, by decide⟩

-- constant evaluation with width 4
example : ({ exampleEnv with constEval := true } : Env).size ≠ 2 ∨ (List.range 9).length % 2 = 1 :=
  Or.inl (by decide)

-- C47: both sides of the equivalence occur
example : (forEach { exampleEnv with strictPtr := true } false (logged ⟨fun s a => (s, a), fun _ _ => rfl⟩)
    ((), []) (List.range 7)) = .ub .badPointer := by decide +kernel
example : Outcome.Defined (forEach { exampleEnv with strictPtr := true } false
    (⟨fun s a => (s, a), fun _ _ => rfl⟩ : Callable Unit Nat) () (List.range 8)) := by
  have : forEach { exampleEnv with strictPtr := true } false
    (⟨fun s a => (s, a), fun _ _ => rfl⟩ : Callable Unit Nat) () (List.range 8) = .ok ((), List.range 8) := by
    decide +kernel
  rw [this]; trivial

/-! ## The theorems applied to concrete data -/

private def inc : Callable Nat Nat := ⟨fun s args => (s + 1, args.map (List.map (· + 100))), fun _ _ => by simp [Function.comp_def]⟩
private theorem fits23 : exampleEnv.Fits (List.range 23).length := by unfold Env.Fits; decide
private theorem reaches23 : ReachesAlignment exampleEnv (List.range 23).length := fun _ _ _ _ => Or.inr ⟨3, by decide, by decide⟩
private theorem noAssume : exampleEnv.pol.assumeMatchingSize = true → exampleEnv.size ∣ (List.range 23).length := by decide

example := forEach_visits_once exampleEnv_wf rfl rfl true inc 0 (List.range 23) fits23 reaches23 noAssume
example := forEach_writes_back exampleEnv_wf rfl rfl inc 0 (List.range 23) fits23 reaches23 noAssume
example := forEach_map exampleEnv_wf rfl rfl inc (· + 100) (fun _ _ => rfl) 0 (List.range 23) fits23 reaches23 noAssume
example := forEach_no_write exampleEnv_wf rfl rfl inc 0 (List.range 23) fits23 reaches23 noAssume
example := forEach_assume_traps (e := exampleEnvAssume) (by decide) true inc 0 (List.range 9) (by decide)
example := forEach_safe (e := { exampleEnv with pol := ⟨[.unrollBy 2]⟩ })
  (libstdcxx_wf _ (by decide) ⟨2, rfl⟩ rfl (by decide) ⟨[.unrollBy 2], by decide⟩ (by decide)) rfl rfl rfl true inc 0 (List.range 23)
  (by unfold Env.Fits; decide)
example := forEach_shapes exampleEnv_wf rfl rfl true inc 0 (List.range 23) fits23 reaches23 noAssume
example := forEach_assume_full_width (e := exampleEnvAssume)
  (libstdcxx_wf _ (by decide) ⟨2, rfl⟩ rfl (by decide) ⟨[.assumeMatchingSize], by decide⟩ (by decide)) rfl rfl (by decide) true inc 0
  (List.range 8) (by unfold Env.Fits; decide) (by decide)
example := forEach_jumptable_irrelevant exampleEnv_wf rfl rfl true inc 0 (List.range 23) fits23 reaches23 noAssume
example := epilogue_jumptable_eq exampleEnv true inc 8 5 (by decide) (by decide) (by decide) 0 (List.range 16) (List.range 5) rfl true
example := prologue_jumptable_eq { exampleEnv with sz := 4, al := fun _ => 1 } true inc 3 5 (by decide) (by decide) (by decide)
  (fun p w => by simp [alignedAt]) 0 (List.range 16) (by decide) true
example := constForEach_visits_once_partial (e := { exampleEnv with constEval := true }) (by decide) rfl rfl true inc 0 (List.range 22)
  (Or.inl (by decide)) (by decide)
example := constForEach_width2_visits_last_twice (e := { exampleEnv with constEval := true, size := 2 }) rfl rfl rfl inc 0
  (List.range 22) (by decide) (by decide)
example := forEach_strict_defined_iff (e := { exampleEnv with strictPtr := true })
  (libstdcxx_wf _ (by decide) ⟨2, rfl⟩ rfl (by decide) ⟨[.preferAligned, .unrollBy 2], by decide⟩ (by decide)) rfl rfl true inc 0
  (List.range 23) fits23 (fun _ _ _ _ => Or.inr ⟨3, by decide, by decide⟩) (by decide) (by decide)

end Vir
