import Verif.Model.CountIfConst
import Verif.Props.CountIf
import Verif.Props.CountIfPartial
import Verif.Props.MaskedOps

/-! # C97, C100: `count_if` with partial predicates and simd programs during constant evaluation -/

namespace Vir
open Vir.Spec Vir.CountIf Vir.ForEach

variable {α : Type}

/-- `p` where it is defined. -/
def CountIf.total (p : PPred α) : Pred α where
  call x := match maskOf p x with
    | .ok k => k
    | _ => List.replicate x.length false
  shape x := by
    split
    · rename_i k h
      unfold maskOf at h
      cases hp : p x.length x with
      | ok k' =>
        rw [hp, Outcome.bind_ok] at h
        split at h
        · cases h; assumption
        · cases h
      | ub u => rw [hp] at h; cases h
      | trap => rw [hp] at h; cases h
    · simp

namespace CountIf

theorem maskOf_iff {p : PPred α} {x : List α} {k : List Bool} : maskOf p x = .ok k ↔ p x.length x = .ok k ∧ k.length = x.length := by
  unfold maskOf
  cases hp : p x.length x with
  | ok k' =>
    rw [Outcome.bind_ok]
    split
    · constructor
      · intro h; cases h; exact ⟨rfl, by assumption⟩
      · intro h; cases h.1; rfl
    · constructor
      · intro h; cases h
      · rintro ⟨h, hl⟩; cases h; contradiction
  | ub u =>
    constructor
    · intro h; cases h
    · intro h; cases h.1
  | trap =>
    constructor
    · intro h; cases h
    · intro h; cases h.1

/-- `p` is defined for `x`. -/
def Good (p : PPred α) (x : List α) : Prop := ∃ k, maskOf p x = .ok k

theorem good_total {p : PPred α} {x : List α} (h : Good p x) : maskOf p x = .ok ((total p).call x) := by
  obtain ⟨k, h⟩ := h
  simp only [total, h]

theorem lambdaC_single {e : Env} {ps : Bool} {p : PPred α} {x : List α} (h : Good p x) (s : Int × List Int) :
    lambdaC e ps p [x] s = lambda e ps (total p) [x] s := by
  have h' := good_total h
  unfold lambdaC lambda
  split
  · rw [incCountAll_single]
    simp only [popcountsC, incCount, h', Outcome.bind_ok]
    cases Simd.popcount ((total p).call x) <;> rfl
  · simp only [incCountvC, incCountC, incCountv, incCount, h', Outcome.bind_ok]

theorem lambdaC_bad {e : Env} {ps : Bool} {p : PPred α} {x : List α} (h : ¬ Good p x) (s r : Int × List Int) :
    lambdaC e ps p [x] s ≠ .ok r := by
  have hm : ∀ k, maskOf p x ≠ .ok k := fun k hk => h ⟨k, hk⟩
  unfold lambdaC
  simp only [popcountsC, incCountvC, incCountC]
  cases hx : maskOf p x with
  | ok k => exact absurd hx (hm k)
  | ub u =>
    intro h'
    split at h'
    · cases h'
    · split at h' <;> cases h'
  | trap =>
    intro h'
    split at h'
    · cases h'
    · split at h' <;> cases h'

theorem run_notOk {e : Env} {ps : Bool} {p : PPred α} (cs : List Call) (xs : List α) {s : Counters} (hs : ∀ r, s ≠ .ok r) :
    ∀ r, (run (callableC e ps p) false cs s xs).1 ≠ .ok r := by
  induction cs generalizing xs s with
  | nil => exact hs
  | cons c cs ih =>
    simp only [run]
    refine ih _ fun r => ?_
    cases s with
    | ok a => exact absurd rfl (hs a)
    | ub u => intro h; cases h
    | trap => intro h; cases h

/-- With one argument per invocation: all pieces are good and the run is that of the total predicate, or some piece is bad and the run is undefined. -/
theorem run_cases {e : Env} {ps : Bool} (p : PPred α) (cs : List Call) (hk : ∀ c ∈ cs, c.k = 1) (s : Counters) (xs : List α) :
    ((∀ x ∈ allChunks cs xs, Good p x) ∧
      (run (callableC e ps p) false cs s xs).1 = (run (callable e ps (total p)) false cs s xs).1) ∨
    (∃ x ∈ allChunks cs xs, ¬ Good p x ∧ ∀ r, (run (callableC e ps p) false cs s xs).1 ≠ .ok r) := by
  induction cs generalizing s xs with
  | nil => exact .inl ⟨by simp [allChunks], rfl⟩
  | cons c cs ih =>
    have hc : chunks c.w c.k xs = [xs.take c.w] := by rw [hk c (by simp)]; rfl
    simp only [run, allChunks, hc]
    by_cases hg : Good p (xs.take c.w)
    · have hcall : ((callableC e ps p).call s [xs.take c.w]).1 = ((callable e ps (total p)).call s [xs.take c.w]).1 := by
        simp only [callableC, callable]
        cases s with
        | ok a => rw [Outcome.bind_ok, Outcome.bind_ok, lambdaC_single hg]
        | ub u => rfl
        | trap => rfl
      rcases ih (fun d hd => hk d (by simp [hd])) ((callableC e ps p).call s [xs.take c.w]).1 (xs.drop c.elems) with ⟨h1, h2⟩ | ⟨x, h1, h2, h3⟩
      · refine .inl ⟨?_, ?_⟩
        · intro x hx
          rcases List.mem_cons.1 hx with rfl | hx
          · exact hg
          · exact h1 x hx
        · rw [h2, hcall]
      · exact .inr ⟨x, List.mem_cons_of_mem _ h1, h2, h3⟩
    · refine .inr ⟨_, List.mem_cons_self, hg, run_notOk _ _ fun r => ?_⟩
      simp only [callableC]
      cases s with
      | ok a => rw [Outcome.bind_ok]; exact lambdaC_bad hg a r
      | ub u => intro h; cases h
      | trap => intro h; cases h

theorem constCallsOf_single {e : Env} (n : Nat) : ∀ c ∈ constCallsOf e n, c.k = 1 := by
  intro c hc
  simp only [constCallsOf, List.mem_append, List.mem_replicate, singles, List.mem_map] at hc
  rcases hc with ⟨_, rfl⟩ | ⟨w, hw, rfl⟩ <;> rfl

end CountIf

private theorem infix_piece {ls : List (List α)} {x : List α} (h : x ∈ ls) {xs : List α} (hp : ls.flatten <+: xs) : x <:+: xs := by
  obtain ⟨a, b, rfl⟩ := List.append_of_mem h
  obtain ⟨c, rfl⟩ := hp
  exact ⟨a.flatten, b.flatten ++ c, by simp⟩

/-- **C97 (constant evaluation).** During constant evaluation `count_if` applies the predicate to consecutive pieces that make up the range; if it
is defined for all of them the result is the number of `true` lanes, or a counter overflows; otherwise the call is not a constant expression.
The width and lengths for which `for_each` itself is wrong (C09) are excluded. -/
theorem countIf_const_partialPred {e : Env} (hs : 0 < e.size) (hce : e.constEval = true) (hpt : e.strictPtr = false) (ps : Bool)
    {hred : List (Outcome Int) → Outcome Int} (hh : SumsLanes e.size hred) (p : PPred α) (xs : List α)
    (h2 : xs.length = 0 ∨ e.size ≠ 2 ∨ xs.length % 2 = 1) (ha : e.pol.assumeMatchingSize = true → e.size ∣ xs.length) :
    (∃ pieces : List (List α × List Bool), (pieces.map (·.1)).flatten = xs ∧
      (∀ x ∈ pieces, p x.1.length x.1 = .ok x.2 ∧ x.2.length = x.1.length) ∧
      countIfC e ps hred p xs = if (pieces.map (·.2)).flatten.count true < 2 ^ 31
        then .ok ((pieces.map (·.2)).flatten.count true : Nat) else .ub .overflow) ∨
    (∃ x, x <:+: xs ∧ (∀ k, p x.length x = .ok k → k.length ≠ x.length) ∧ ∀ r, countIfC e ps hred p xs ≠ .ok r) := by
  have hel := elems_constCallsOf e xs.length
  have hfl : (allChunks (constCallsOf e xs.length) xs).flatten = xs := by rw [allChunks_flatten, hel, List.take_length]
  have hrun : countIfC e ps hred p xs =
      (do let (count, countv) ← (run (callableC e ps p) false (constCallsOf e xs.length) (.ok (0, List.replicate e.size 0)) xs).1
          addInt count (← sumCountv hred countv)) := by
    rw [countIfC, constForEach_eq_run hs hce (by simp [hpt]) h2 ha false _ _ xs rfl]
    rfl
  rcases run_cases (e := e) (ps := ps) p (constCallsOf e xs.length) (constCallsOf_single _) (.ok (0, List.replicate e.size 0)) xs with
    ⟨h3, h4⟩ | ⟨x, h3, h4, h5⟩
  · left
    refine ⟨(allChunks (constCallsOf e xs.length) xs).map fun x => (x, (total p).call x), ?_, ?_, ?_⟩
    · rw [List.map_map]
      simpa [Function.comp_def] using hfl
    · intro y hy
      obtain ⟨x, hx, rfl⟩ := List.mem_map.1 hy
      exact maskOf_iff.1 (good_total (h3 x hx))
    · have hJ := J_run (ps := ps) (total p) _ (constCallsOf_ok hs xs.length) _ _ xs (Nat.le_of_eq hel) (J_init e.size)
      rw [Nat.zero_add] at hJ
      rw [hrun, h4, final_sum hh hJ]
      simp only [List.count_flatten, List.map_map, Function.comp_def]
  · right
    refine ⟨x, infix_piece h3 (by rw [hfl]; exact List.prefix_rfl), fun k hk hl => h4 ⟨k, maskOf_iff.2 ⟨hk, hl⟩⟩, fun r hr => ?_⟩
    rw [hrun] at hr
    cases hst : (run (callableC e ps p) false (constCallsOf e xs.length) (.ok (0, List.replicate e.size 0)) xs).1 with
    | ok a => exact h5 a hst
    | ub u => rw [hst] at hr; cases hr
    | trap => rw [hst] at hr; cases hr

/-- **C97 (constant evaluation).** If the predicate is defined for all pieces of the range and tests every element with `q`, the result is the number
of elements that satisfy `q`. -/
theorem countIf_const_defined {e : Env} (hs : 0 < e.size) (hce : e.constEval = true) (hpt : e.strictPtr = false) (ps : Bool)
    {hred : List (Outcome Int) → Outcome Int} (hh : SumsLanes e.size hred) (p : PPred α) (xs : List α)
    (h2 : xs.length = 0 ∨ e.size ≠ 2 ∨ xs.length % 2 = 1) (ha : e.pol.assumeMatchingSize = true → e.size ∣ xs.length) (q : α → Bool)
    (hq : ∀ x, x <:+: xs → p x.length x = .ok (x.map q)) :
    countIfC e ps hred p xs = if xs.countP q < 2 ^ 31 then .ok (xs.countP q : Int) else .ub .overflow := by
  rcases countIf_const_partialPred hs hce hpt ps hh p xs h2 ha with ⟨pieces, h1, h2, h3⟩ | ⟨x, h1, h2, _⟩
  · have : (pieces.map (·.2)).flatten = xs.map q := by
      rw [← h1, List.map_flatten, List.map_map]
      congr 1
      refine List.map_congr_left fun x hx => ?_
      have := (h2 x hx).1
      rw [hq x.1 (infix_piece (List.mem_map_of_mem hx) (by rw [h1]; exact List.prefix_rfl))] at this
      exact (Outcome.ok.inj this).symm
    have hcnt : (pieces.map (·.2)).flatten.count true = xs.countP q := by
      rw [this, List.count, List.countP_map]
      congr 1
      funext x
      simp
    rw [h3, hcnt]
  · exact absurd (by simp) (h2 _ (hq x h1))

/-- **C97 (constant evaluation, the excluded case).** With width 2 and a non-empty range of even length the predicate is applied to pieces that make
up the range and then to the last element once more. -/
theorem countIf_const_width2_pieces {e : Env} (h2 : e.size = 2) (hce : e.constEval = true) (hpt : e.strictPtr = false) (ps : Bool)
    {hred : List (Outcome Int) → Outcome Int} (hh : SumsLanes e.size hred) (p : PPred α) (xs : List α) (hn : xs.length ≠ 0)
    (hev : xs.length % 2 = 0) : ∃ last, xs = xs.dropLast ++ [last] ∧
    ((∃ pieces : List (List α × List Bool), (pieces.map (·.1)).flatten = xs ++ [last] ∧
      (∀ x ∈ pieces, x.1 <:+: xs ∧ p x.1.length x.1 = .ok x.2 ∧ x.2.length = x.1.length) ∧
      countIfC e ps hred p xs = if (pieces.map (·.2)).flatten.count true < 2 ^ 31
        then .ok ((pieces.map (·.2)).flatten.count true : Nat) else .ub .overflow) ∨
    (∃ x, x <:+: xs ∧ (∀ k, p x.length x = .ok k → k.length ≠ x.length) ∧ ∀ r, countIfC e ps hred p xs ≠ .ok r)) := by
  obtain ⟨last, hl, h⟩ := constForEach_width2 h2 hce hpt hn hev (callableC e ps p) (.ok (0, List.replicate e.size 0)) xs rfl
  refine ⟨last, hl, ?_⟩
  have hlast : [last] <:+: xs := ⟨xs.dropLast, [], by rw [List.append_nil]; exact hl.symm⟩
  have hel : elems (List.replicate (xs.length / 2) (⟨2, 1⟩ : Call)) = xs.length := by
    simp [Call.elems]; omega
  have hfl : (allChunks (List.replicate (xs.length / 2) (⟨2, 1⟩ : Call)) xs).flatten = xs := by
    rw [allChunks_flatten, hel, List.take_length]
  have hrun : countIfC e ps hred p xs = (do
      let (count, countv) ← ((callableC e ps p).call
        (run (callableC e ps p) false (List.replicate (xs.length / 2) ⟨2, 1⟩) (.ok (0, List.replicate e.size 0)) xs).1 [[last]]).1
      addInt count (← sumCountv hred countv)) := by
    rw [countIfC, h]
    rfl
  rcases run_cases (e := e) (ps := ps) p (List.replicate (xs.length / 2) ⟨2, 1⟩) (fun c hc => by rw [(List.mem_replicate.1 hc).2])
    (.ok (0, List.replicate e.size 0)) xs with ⟨h3, h4⟩ | ⟨x, h3, h4, h5⟩
  · rw [h4] at hrun
    have hJ := J_run (e := e) (ps := ps) (total p) (List.replicate (xs.length / 2) ⟨2, 1⟩)
      (fun c hc => by rw [(List.mem_replicate.1 hc).2]; exact ⟨by simp, Or.inl rfl⟩) _ _ xs (Nat.le_of_eq hel) (J_init e.size)
    have hJ' := J_call (e := e) (ps := ps) (total p) [[last]] _ _ (Or.inl ⟨[last], rfl, by simp⟩) hJ
    by_cases hg : Good p [last]
    · left
      refine ⟨(allChunks (List.replicate (xs.length / 2) (⟨2, 1⟩ : Call)) xs ++ [[last]]).map fun x => (x, (total p).call x), ?_, ?_, ?_⟩
      · rw [List.map_map]
        simp [Function.comp_def, hfl]
      · intro y hy
        obtain ⟨x, hx, rfl⟩ := List.mem_map.1 hy
        rcases List.mem_append.1 hx with hx | hx
        · exact ⟨infix_piece hx (by rw [hfl]; exact List.prefix_rfl), maskOf_iff.1 (good_total (h3 x hx))⟩
        · rw [List.mem_singleton] at hx
          subst hx
          exact ⟨hlast, maskOf_iff.1 (good_total hg)⟩
      · have hcall : ∀ s, ((callableC e ps p).call s [[last]]).1 = ((callable e ps (total p)).call s [[last]]).1 := by
          intro s
          simp only [callableC, callable]
          cases s with
          | ok a => rw [Outcome.bind_ok, Outcome.bind_ok, lambdaC_single hg]
          | ub u => rfl
          | trap => rfl
        rw [hrun, hcall, final_sum hh hJ', Nat.zero_add]
        simp only [List.count_flatten, List.map_map, Function.comp_def, List.map_append, List.sum_append]
    · right
      refine ⟨[last], hlast, fun k hk hl => hg ⟨k, maskOf_iff.2 ⟨hk, hl⟩⟩, fun r hr => ?_⟩
      rw [hrun] at hr
      generalize (run (callable e ps (total p)) false (List.replicate (xs.length / 2) ⟨2, 1⟩) (.ok (0, List.replicate e.size 0)) xs).1 = s at hr
      simp only [callableC] at hr
      cases s with
      | ok a =>
        rw [Outcome.bind_ok] at hr
        cases hst : lambdaC e ps p [[last]] a with
        | ok b => exact lambdaC_bad hg a b hst
        | ub u => rw [hst] at hr; cases hr
        | trap => rw [hst] at hr; cases hr
      | ub u => cases hr
      | trap => cases hr
  · right
    refine ⟨x, infix_piece h3 (by rw [hfl]; exact List.prefix_rfl), fun k hk hl => h4 ⟨k, maskOf_iff.2 ⟨hk, hl⟩⟩, fun r hr => ?_⟩
    rw [hrun] at hr
    simp only [callableC] at hr
    cases hst : (run (callableC e ps p) false (List.replicate (xs.length / 2) ⟨2, 1⟩) (.ok (0, List.replicate e.size 0)) xs).1 with
    | ok a => exact h5 a hst
    | ub u => simp only [callableC] at hst; rw [hst] at hr; cases hr
    | trap => simp only [callableC] at hst; rw [hst] at hr; cases hr

/-- **C97 (constant evaluation, the excluded case).** If the predicate tests every element with `q`, the last element is counted twice. -/
theorem countIf_const_width2_defined {e : Env} (h2 : e.size = 2) (hce : e.constEval = true) (hpt : e.strictPtr = false) (ps : Bool)
    {hred : List (Outcome Int) → Outcome Int} (hh : SumsLanes e.size hred) (p : PPred α) (xs : List α) (hn : xs.length ≠ 0)
    (hev : xs.length % 2 = 0) (q : α → Bool) (hq : ∀ x, x <:+: xs → p x.length x = .ok (x.map q)) :
    ∃ last, xs = xs.dropLast ++ [last] ∧ countIfC e ps hred p xs =
      if (xs ++ [last]).countP q < 2 ^ 31 then .ok ((xs ++ [last]).countP q : Int) else .ub .overflow := by
  obtain ⟨last, hl, h⟩ := countIf_const_width2_pieces h2 hce hpt ps hh p xs hn hev
  refine ⟨last, hl, ?_⟩
  rcases h with ⟨pieces, h1, h2, h3⟩ | ⟨x, h1, h2, _⟩
  · have : (pieces.map (·.2)).flatten = (xs ++ [last]).map q := by
      rw [← h1, List.map_flatten, List.map_map]
      congr 1
      refine List.map_congr_left fun x hx => ?_
      have := (h2 x hx).2.1
      rw [hq x.1 (h2 x hx).1] at this
      exact (Outcome.ok.inj this).symm
    have hcnt : (pieces.map (·.2)).flatten.count true = (xs ++ [last]).countP q := by
      rw [this, List.count, List.countP_map]
      congr 1
      funext x
      simp
    rw [h3, hcnt]
  · exact absurd (by simp) (h2 _ (hq x h1))

/-- Whatever is returned comes from answers of the predicate for consecutive pieces. -/
theorem CountIf.const_answers {e : Env} (hs : 0 < e.size) (hce : e.constEval = true) (hpt : e.strictPtr = false) (ps : Bool)
    {hred : List (Outcome Int) → Outcome Int} (hh : SumsLanes e.size hred) (p : PPred α) (xs : List α)
    (h2 : xs.length = 0 ∨ e.size ≠ 2 ∨ xs.length % 2 = 1) (ha : e.pol.assumeMatchingSize = true → e.size ∣ xs.length)
    {R : α → Bool → Prop} (hR : ∀ x k, x <:+: xs → p x.length x = .ok k → Answers R x k) {r : Int} (h : countIfC e ps hred p xs = .ok r) :
    ∃ bs, Answers R xs bs ∧ r = (bs.count true : Nat) := by
  rcases countIf_const_partialPred hs hce hpt ps hh p xs h2 ha with ⟨pieces, h1, h2, h3⟩ | ⟨x, _, _, h3⟩
  · refine ⟨(pieces.map (·.2)).flatten, ?_, ?_⟩
    · have hi : ∀ x ∈ pieces, x.1 <:+: xs := fun x hx => infix_piece (List.mem_map_of_mem hx) (by rw [h1]; exact List.prefix_rfl)
      rw [← h1]
      clear h1 h3
      induction pieces with
      | nil => exact answers_nil
      | cons x pieces ih =>
        simp only [List.map_cons, List.flatten_cons]
        exact answers_append (hR x.1 x.2 (hi x (by simp)) (h2 x (by simp)).1)
          (ih (fun y hy => h2 y (by simp [hy])) fun y hy => hi y (by simp [hy]))
    · rw [h3] at h
      split at h
      · exact (Outcome.ok.inj h).symm
      · cases h
  · exact absurd h (h3 r)

section Numbers
open SimdProg

variable {ty : IntTy} {ts : List IntTy} {nm out : Nat} {p : Stmt}

/-- **C97 (constant evaluation).** `count_if` with a simd program as predicate counts the numbers for which the program says `true`. -/
theorem countIf_const_prog {e : Env} (hs : 0 < e.size) (hce : e.constEval = true) (hpt : e.strictPtr = false) (ps : Bool)
    {hred : List (Outcome Int) → Outcome Int} (hh : SumsLanes e.size hred) (xs : List Int)
    (h2 : xs.length = 0 ∨ e.size ≠ 2 ∨ xs.length % 2 = 1) (ha : e.pol.assumeMatchingSize = true → e.size ∣ xs.length) (hx : LanesOf ty xs)
    (hts : VarTypes (ty :: ts)) (hp : Typed (ty :: ts) nm p) (hout : out < nm) (q : Int → Bool)
    (hd : ∀ x ∈ xs, ProgMask ts.length nm out p x (q x)) :
    ∃ N, ∀ n, N ≤ n → countIfC e ps hred (progPred ts.length nm out p n) xs =
      if xs.countP q < 2 ^ 31 then .ok (xs.countP q : Int) else .ub .overflow := by
  obtain ⟨N, hN⟩ := infix_bound (xs := xs) (P := fun x n => progPred ts.length nm out p n x.length x = .ok (x.map q)) fun x hxs =>
    progPred_value hts hp hout q x (fun y hy => hx y (hxs.subset hy)) fun y hy => hd y (hxs.subset hy)
  exact ⟨N, fun n hn => countIf_const_defined hs hce hpt ps hh _ xs h2 ha q (hN n hn)⟩

/-- **C97 (constant evaluation).** Conversely, whatever it returns is the number of elements for which the statements of the program lead to
`true`. -/
theorem countIf_const_prog_sound {e : Env} (hs : 0 < e.size) (hce : e.constEval = true) (hpt : e.strictPtr = false) (ps : Bool)
    {hred : List (Outcome Int) → Outcome Int} (hh : SumsLanes e.size hred) (xs : List Int)
    (h2 : xs.length = 0 ∨ e.size ≠ 2 ∨ xs.length % 2 = 1) (ha : e.pol.assumeMatchingSize = true → e.size ∣ xs.length) (hx : LanesOf ty xs)
    (hts : VarTypes (ty :: ts)) (hp : Typed (ty :: ts) nm p) {idle : Prop} (hi : idle ∨ MaskedLoops p) {n : Nat} {r : Int}
    (h : countIfC e ps hred (progPred ts.length nm out p n) xs = .ok r) :
    ∃ bs, Answers (fun x b => StepsMask idle ts.length nm out p x b) xs bs ∧ r = (bs.count true : Nat) :=
  CountIf.const_answers hs hce hpt ps hh _ xs h2 ha
    (fun x _ hxs hk => progPred_sound hts hp hi n x (fun y hy => hx y (hxs.subset hy)) hk) h

end Numbers

section Lanes
open LaneProg Spec.OneLane

variable [Inhabited α] {zs : List α} {nm out : Nat} {V M : Nat → Prop} {p : Stmt α}

/-- **C100 (constant evaluation).** `count_if` with a masked program of any element type counts the elements for which the program says `true`. -/
theorem countIf_const_masked {e : Env} (hs : 0 < e.size) (hce : e.constEval = true) (hpt : e.strictPtr = false) (ps : Bool)
    {hred : List (Outcome Int) → Outcome Int} (hh : SumsLanes e.size hred) (xs : List α)
    (h2 : xs.length = 0 ∨ e.size ≠ 2 ∨ xs.length % 2 = 1) (ha : e.pol.assumeMatchingSize = true → e.size ∣ xs.length)
    (hp : IsMasked (1 + zs.length) nm V M p) (ht : LoopsTotal p) (hout : out < nm) (hM : ¬ M out) (q : α → Bool)
    (hd : ∀ x ∈ xs, Says zs nm out p x (q x)) :
    ∃ N, ∀ n, N ≤ n → countIfC e ps hred (lanePred zs nm out p n) xs =
      if xs.countP q < 2 ^ 31 then .ok (xs.countP q : Int) else .ub .overflow := by
  obtain ⟨N, hN⟩ := infix_bound (xs := xs) (P := fun x n => lanePred zs nm out p n x.length x = .ok (x.map q)) fun x hxs =>
    lanePred_value hp ht hout hM q x fun y hy => hd y (hxs.subset hy)
  exact ⟨N, fun n hn => countIf_const_defined hs hce hpt ps hh _ xs h2 ha q (hN n hn)⟩

/-- **C100 (constant evaluation).** Conversely, whatever it returns is the number of elements for which the program on the single element says
`true`, and that program ends for all of them. -/
theorem countIf_const_masked_sound {e : Env} (hs : 0 < e.size) (hce : e.constEval = true) (hpt : e.strictPtr = false) (ps : Bool)
    {hred : List (Outcome Int) → Outcome Int} (hh : SumsLanes e.size hred) (xs : List α)
    (h2 : xs.length = 0 ∨ e.size ≠ 2 ∨ xs.length % 2 = 1) (ha : e.pol.assumeMatchingSize = true → e.size ∣ xs.length)
    (hp : IsMasked (1 + zs.length) nm V M p) (hM : ¬ M out) {n : Nat} {r : Int} (h : countIfC e ps hred (lanePred zs nm out p n) xs = .ok r) :
    ∃ bs, Answers (fun x b => Says zs nm out p x b) xs bs ∧ r = (bs.count true : Nat) :=
  CountIf.const_answers hs hce hpt ps hh _ xs h2 ha (fun x _ _ hk => lanePred_sound hp hM n x hk) h

end Lanes

theorem CountIf.maskOf_pure (p : Pred α) (x : List α) : maskOf (fun _ x => .ok (p.call x)) x = .ok (p.call x) :=
  maskOf_iff.2 ⟨rfl, p.shape x⟩

theorem CountIf.popcountsC_pure (p : Pred α) (args : List (List α)) (s : Int × List Int) :
    (do .ok (← addInt s.1 (← popcountsC (fun _ x => .ok (p.call x)) args), s.2)) = incCountAll p args s := by
  have h : popcountsC (fun _ x => .ok (p.call x)) args = args.dropLast.foldr
      (fun x acc => do addInt (← Simd.popcount (p.call x)) (← acc))
      (match args.getLast? with
        | some x => do .ok (← Simd.popcount (p.call x) : Nat)
        | none => .ub .staticAssert) := by
    induction args with
    | nil => rfl
    | cons x args ih =>
      cases args with
      | nil => simp only [popcountsC, maskOf_pure, Outcome.bind_ok]; rfl
      | cons y args =>
        rw [popcountsC, ih, maskOf_pure, Outcome.bind_ok]
        · simp only [List.dropLast_cons₂, List.foldr_cons, List.getLast?_cons_cons]
        · simp
  rw [h]
  rfl

/-- With a predicate that is defined for all arguments this is the model of C19, at run time and during constant evaluation. -/
theorem countIfC_pure (e : Env) (ps : Bool) (hred : List (Outcome Int) → Outcome Int) (p : Pred α) (xs : List α) :
    countIfC e ps hred (fun _ x => .ok (p.call x)) xs = countIf e ps hred p xs := by
  have h : callableC e ps (fun _ x => .ok (p.call x)) = callable e ps p := by
    have hv : incCountvC (fun _ x => .ok (p.call x)) = incCountv p := by
      funext x s
      simp only [incCountvC, incCountv, maskOf_pure, Outcome.bind_ok]
    have hc : incCountC (fun _ x => .ok (p.call x)) = incCount p := by
      funext x s
      simp only [incCountC, incCount, maskOf_pure, Outcome.bind_ok]
    have : ∀ args s, lambdaC e ps (fun _ x => .ok (p.call x)) args s = lambda e ps p args s := by
      intro args s
      unfold lambdaC lambda
      rw [hv, hc, popcountsC_pure]
      rfl
    simp only [callableC, callable, this]
  rw [countIfC, countIf, h]

/-! ### the theorems are about something -/

private def constEnv : Env := { exampleEnv with constEval := true }
private theorem sums : SumsLanes constEnv.size fallbackSum := fallbackSum_sumsLanes (by decide) (by decide)

/-- `12 / x > 2`, undefined for zeros. -/
private def quotient : PPred Int := fun _ x => if 0 ∈ x then .ub .div0 else .ok (x.map fun y => decide (12 / y > 2))

example := countIf_const_partialPred (by decide) rfl rfl true sums quotient ((List.range 23).map Int.ofNat) (by decide) (by intro h; revert h; decide)
example : countIfC constEnv true fallbackSum quotient ((List.range 23).map Int.ofNat) = .ub .div0 := by decide +kernel
example : countIfC constEnv false fallbackSum quotient ((List.range 23).map Int.ofNat) = .ub .div0 := by decide +kernel
example (ps : Bool) : countIfC constEnv ps fallbackSum quotient ((List.range' 1 23).map Int.ofNat) = .ok 4 := by
  have := countIf_const_defined (by decide) rfl rfl ps sums quotient ((List.range' 1 23).map Int.ofNat)
    (by decide) (by intro h; revert h; decide) (fun y => decide (12 / y > 2)) (fun x hx => by
      unfold quotient
      rw [if_neg]
      intro h0
      have := hx.subset h0
      revert this
      decide)
  exact this.trans (by decide)

section
open SimdProg IntTy

private theorem valid32 : ValidTy i32 := by unfold ValidTy; decide
private theorem types32 : VarTypes [i32, i32, i32] := fun t' h => by
  have : t' = i32 := by simpa using h
  subst this
  exact ⟨valid32, by decide⟩

/-- Of 0, …, 22 the numbers 1, 5, 7, 11, 13, 17, 19 are coprime to 12, in a constant expression. -/
example (ps : Bool) : ∃ N, ∀ n, N ≤ n → countIfC constEnv ps fallbackSum (progPred 2 1 0 (coprime i32 12) n) ((List.range 23).map Int.ofNat) = .ok 7 := by
  obtain ⟨N, h⟩ := countIf_const_prog (ty := i32) (ts := [i32, i32]) (nm := 1) (out := 0) (p := coprime i32 12) (e := constEnv) (by decide) rfl rfl ps sums
    ((List.range 23).map Int.ofNat) (by decide) (by intro h; revert h; decide) (by unfold LanesOf; decide) types32
    (by simp [coprime, euclid, euclidBody, Typed, MkTyped, ExTyped, valid32]) (by decide) (fun x => decide (Nat.Coprime x.toNat 12))
    (fun y hy => by
      obtain ⟨x, h, rfl⟩ := List.mem_map.1 hy
      exact coprime_value (by decide) 12 x (by decide))
  exact ⟨N, fun n hn => (h n hn).trans (by decide +kernel)⟩
example : countIfC constEnv true fallbackSum (progPred 2 1 0 (coprime i32 12) 10) ((List.range 23).map Int.ofNat) = .ok 7 := by decide +kernel
example : countIfC constEnv true fallbackSum (progPred 2 1 0 (coprime i32 12) 1) ((List.range 23).map Int.ofNat) = .ub .diverge := by decide +kernel

example {ps : Bool} {n : Nat} {r : Int} (h : countIfC constEnv ps fallbackSum (progPred 2 1 0 (coprime i32 12) n) ((List.range 23).map Int.ofNat) = .ok r) :=
  countIf_const_prog_sound (ty := i32) (ts := [i32, i32]) (idle := False) (p := coprime i32 12) (by decide) rfl rfl ps sums
    ((List.range 23).map Int.ofNat) (by decide) (by intro h; revert h; decide) (by unfold LanesOf; decide) types32
    (by simp [coprime, euclid, euclidBody, Typed, MkTyped, ExTyped, valid32])
    (Or.inr ⟨trivial, ⟨trivial, 0, rfl, by simp [euclidBody, MaskedBy]⟩, trivial⟩) h
end

section
open LaneProg Spec.OneLane

/-- `where(x < 0, x) = -x; k = x > limit; return k;` with the limit in a further variable. -/
private def large : Stmt Int :=
  .seq (.whereAssign (.cmp (fun x _ => decide (x < 0)) (.var 0) (.var 0)) 0 (.un (fun x => .ok (-x)) (.var 0)))
    (.setMask 0 (.cmp (fun x y => decide (y < x)) (.var 0) (.var 1)))

private theorem large_isMasked : IsMasked (1 + [(3 : Int)].length) 1 (fun _ => False) (fun _ => False) large :=
  ⟨.seq (.whereAssign id (by simp [ExAvoids]) (by simp [MkAvoids, ExAvoids]) (fun h => by cases h))
    (.setMask id (by simp [MkAvoids, ExAvoids]) (fun h => by cases h)), by simp [large, Uses, ExUses, MkUses], by simp [large, Uniform, ExUniform, MkUniform]⟩

private theorem large_says (x : Int) : Says [3] 1 0 large x (decide (3 < (x.natAbs : Int))) := by
  refine ⟨([(x.natAbs : Int), 3], [decide (3 < (x.natAbs : Int))]), ?_, rfl⟩
  have hc := Cond.cmp (i := 0) (l := ([x, 3], [false])) (r := fun x _ => decide (x < 0)) (Value.var (k := 0) rfl) (Value.var (k := 0) rfl)
  by_cases h : x < 0
  · rw [show (x.natAbs : Int) = -x by omega]
    exact .seq (.where_true (v := -x) (by simpa [h] using hc) (.un (.var rfl) rfl)) (.setMask (.cmp (.var rfl) (.var rfl)))
  · rw [show (x.natAbs : Int) = x by omega]
    exact .seq (.where_false (v := -x) (by simpa [h] using hc) (.un (.var rfl) rfl)) (.setMask (.cmp (.var rfl) (.var rfl)))

private def numbers : List Int := [3, -1, 4, -1, 5, -9, 2, -6, 5, -3, 5]

example (ps : Bool) : ∃ N, ∀ n, N ≤ n → countIfC constEnv ps fallbackSum (lanePred [3] 1 0 large n) numbers = .ok 6 := by
  obtain ⟨N, h⟩ := countIf_const_masked (e := constEnv) (by decide) rfl rfl ps sums numbers (by decide) (by intro h; revert h; decide) large_isMasked
    (by simp [large, LoopsTotal]) (out := 0) (by decide) id (fun x => decide (3 < (x.natAbs : Int))) (fun x _ => large_says x)
  exact ⟨N, fun n hn => (h n hn).trans (by decide +kernel)⟩
example {ps : Bool} {n : Nat} {r : Int} (h : countIfC constEnv ps fallbackSum (lanePred [3] 1 0 large n) numbers = .ok r) :=
  countIf_const_masked_sound (e := constEnv) (by decide) rfl rfl ps sums numbers (by decide) (by intro h; revert h; decide) large_isMasked id h
end

-- run time, several simds per invocation
example : countIfC exampleEnv true fallbackSum (fun _ x => .ok ((⟨fun x => x.map (· % 3 == 0), by simp⟩ : Pred Nat).call x)) (List.range 23) = .ok 8 :=
  (countIfC_pure _ _ _ _ _).trans (by decide +kernel)

-- width 2 and an even length: a predicate that is undefined for the number 7, with and without this number in the range
private def not7 : PPred Nat := fun _ x => if 7 ∈ x then .ub .overflow else .ok (x.map (· % 3 == 0))

private theorem sums2 : SumsLanes 2 fallbackSum := fallbackSum_sumsLanes (by decide) (by decide)

example := countIf_const_width2_pieces (e := { exampleEnv with constEval := true, size := 2 }) rfl rfl rfl true sums2 not7 (List.range 10) (by decide)
  (by decide)
example := countIf_const_width2_defined (e := { exampleEnv with constEval := true, size := 2 }) rfl rfl rfl true sums2 not7 [1, 2, 3, 6] (by decide)
  (by decide) (· % 3 == 0) (fun x hx => if_neg fun h => absurd (hx.subset h) (by decide))
-- computed from the model: 6 is counted twice, and undefined with 7
example : countIfC { exampleEnv with constEval := true, size := 2 } true fallbackSum not7 [1, 2, 3, 6] = .ok 3 ∧
    countIfC { exampleEnv with constEval := true, size := 2 } true fallbackSum not7 [3, 7] = .ub .overflow := by decide +kernel

end Vir
