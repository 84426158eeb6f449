import Verif.Spec.CountIfPartial
import Verif.Lemmas.ProgOps
import Verif.Props.CountIfEffects

/-!
# C97: `count_if` with predicates that may be undefined, and with simd programs
-/

namespace Vir
open Spec SimdProg ForEach CountIf IntTy

variable {σ α : Type}

private theorem preds_unlogged (p : TPred σ α) : ∀ (xs : List (List α)) (s : σ) (l : List (PEvent α)) (c : Counters),
    predsThenInc p xs (s, c) = (((predsThenInc (loggedP p) xs ((s, l), c)).1.1.1, (predsThenInc (loggedP p) xs ((s, l), c)).1.2),
      (predsThenInc (loggedP p) xs ((s, l), c)).2)
  | [], _, _, _ => rfl
  | x :: xs, s, l, c => by
    simp only [predsThenInc, loggedP]
    generalize p.call s x = r
    obtain ⟨s', r⟩ := r
    cases r with
    | none => rfl
    | some k => exact preds_unlogged p xs s' _ _

private theorem lambda_unlogged (p : TPred σ α) (xs : List (List α)) (s : σ) (l : List (PEvent α)) (c : Counters) :
    lambdaT p xs (s, c) = (((lambdaT (loggedP p) xs ((s, l), c)).1.1.1, (lambdaT (loggedP p) xs ((s, l), c)).1.2),
      (lambdaT (loggedP p) xs ((s, l), c)).2) := by
  unfold lambdaT
  split
  · rename_i x
    simp only [loggedP]
    generalize p.call s x = r
    obtain ⟨s', r⟩ := r
    cases r <;> rfl
  · exact preds_unlogged p _ s l c

/-- Recording the invocations changes nothing. -/
theorem countIf_unlogged {e : Env} (hs : 0 < e.size) (hred : List (Outcome Int) → Outcome Int) (p : TPred σ α) (s : σ) (l : List (PEvent α)) (xs : List α) :
    Sim (fun r => (r.1.1, r.2)) (countIfT e hred (loggedP p) (s, l) xs) (countIfT e hred p s xs) := by
  have hi : InvSim e.size (S := TState ((σ × List (PEvent α)) × Counters) α) (S' := TState (σ × Counters) α)
      (Sum.map (fun st => ((st.1.1.1, st.1.2), st.2)) (fun st => ((st.1.1.1, st.1.2), st.2)))
      (invokeT e false (callableT (loggedP p))) (invokeT e false (callableT p)) := by
    intro w aligned k pos st _ _
    cases st with
    | inr x => rfl
    | inl x =>
      obtain ⟨⟨⟨s, l⟩, c⟩, mem⟩ := x
      simp only [invokeT, Sum.map_inl]
      cases loadAll e mem aligned w k pos with
      | ub r => trivial
      | trap => trivial
      | ok cs =>
        simp only [Outcome.bind_ok, callableT]
        rw [lambda_unlogged p cs s l c]
        generalize lambdaT (loggedP p) cs ((s, l), c) = r
        obtain ⟨⟨⟨s1, l1⟩, c1⟩, b⟩ := r
        cases b <;> rfl
  have hsim := sim_forEach hi hs xs.length (.inl (((s, l), .ok (0, List.replicate e.size 0)), xs))
  simp only [Sum.map_inl] at hsim
  unfold countIfT forEachT
  revert hsim
  generalize forEachG e (invokeT e false (callableT (loggedP p))) xs.length _ = a
  generalize forEachG e (invokeT e false (callableT p)) xs.length _ = b
  intro hsim
  cases a with
  | ub u => cases b with
    | ub u' => trivial
    | ok b => exact hsim.elim
    | trap => exact hsim.elim
  | trap => cases b with
    | ub u' => exact hsim.elim
    | ok b => exact hsim.elim
    | trap => trivial
  | ok st =>
    rw [Sim.of_ok hsim rfl]
    cases st with
    | inl x =>
      obtain ⟨⟨⟨s, l⟩, c⟩, mem⟩ := x
      simp only [Outcome.bind_ok, Sum.map_inl]
      cases c with
      | ub u => trivial
      | trap => trivial
      | ok c =>
        simp only [Outcome.bind_ok]
        cases sumCountv hred c.2 with
        | ub u => trivial
        | trap => trivial
        | ok v =>
          simp only [Outcome.bind_ok]
          cases addInt c.1 v with
          | ub u => trivial
          | trap => trivial
          | ok r => rfl
    | inr x =>
      obtain ⟨⟨⟨s, l⟩, c⟩, mem⟩ := x
      simp only [Outcome.bind_ok, Sum.map_inr]
      cases c with
      | ub u => trivial
      | trap => trivial
      | ok c => rfl

private theorem exits_some {p : PPred α} {s : Outcome Unit} {x : List α} {k : List Bool} (h : ((exits p).call s x).2 = some k) :
    p x.length x = .ok k ∧ k.length = x.length ∧ ((exits p).call s x).1 = s := by
  simp only [exits] at h ⊢
  cases hp : p x.length x with
  | ub u => rw [hp] at h; cases h
  | trap => rw [hp] at h; cases h
  | ok r =>
    rw [hp] at h
    simp only [] at h ⊢
    split at h
    · rename_i hr
      cases h
      exact ⟨rfl, hr, by rw [if_pos hr]⟩
    · cases h

private theorem exits_none {p : PPred α} {s : Outcome Unit} {x : List α} (h : ((exits p).call s x).2 = none) :
    (∀ k, p x.length x = .ok k → k.length ≠ x.length) ∧ ((exits p).call s x).1 ≠ .ok () := by
  simp only [exits] at h ⊢
  cases hp : p x.length x with
  | ub u => exact ⟨nofun, nofun⟩
  | trap => exact ⟨nofun, nofun⟩
  | ok r =>
    rw [hp] at h
    simp only [] at h ⊢
    split at h
    · cases h
    · rename_i hr
      refine ⟨fun k hk => by cases hk; exact hr, ?_⟩
      rw [if_neg hr]
      nofun

private theorem trace_exits {p : PPred α} : ∀ (log : List (PEvent α)) (s s' : Outcome Unit), TraceP (exits p) s log s' → (∀ ev ∈ log, ev.result.isSome) →
    s' = s ∧ ∀ ev ∈ log, ∃ k, p ev.arg.length ev.arg = .ok k ∧ k.length = ev.arg.length ∧ ev.result = some k
  | [], s, s', h, _ => ⟨h, by simp⟩
  | ev :: log, s, s', h, hs => by
    obtain ⟨k, hk⟩ := Option.isSome_iff_exists.1 (hs ev (by simp))
    have h1 := exits_some (h.1.trans hk)
    obtain ⟨h2, h3⟩ := trace_exits log _ _ h.2 fun ev hev => hs ev (by simp [hev])
    refine ⟨h2.trans h1.2.2, fun ev' hev => ?_⟩
    rcases List.mem_cons.1 hev with rfl | hev
    · exact ⟨k, h1.1, h1.2.1, hk⟩
    · exact h3 ev' hev

private theorem trace_split {p : TPred σ α} : ∀ (l l' : List (PEvent α)) (s s2 : σ), TraceP p s (l ++ l') s2 →
    ∃ s1, TraceP p s l s1 ∧ TraceP p s1 l' s2
  | [], _, s, _, h => ⟨s, rfl, h⟩
  | ev :: l, l', s, s2, h => by
    obtain ⟨s1, h1, h2⟩ := trace_split l l' _ s2 h.2
    exact ⟨s1, ⟨h.1, h1⟩, h2⟩

private theorem infix_piece {ls : List (List α)} {x : List α} (h : x ∈ ls) {xs : List α} (hp : ls.flatten <+: xs) : x <:+: xs := by
  obtain ⟨a, b, rfl⟩ := List.append_of_mem h
  obtain ⟨c, rfl⟩ := hp
  exact ⟨a.flatten, b.flatten ++ c, by simp⟩

/-- **C97.** `count_if` with any predicate, which may be undefined for some arguments: the range is cut into consecutive pieces; either the
predicate is defined for all of them and the result is the number of `true` values it returned, if `int` can represent that, or it is
undefined for a piece and then so is the call. -/
theorem countIf_partialPred {e : Env} (wf : e.WF) (hce : e.constEval = false) (hpt : e.strictPtr = false)
    {hred : List (Outcome Int) → Outcome Int} (hh : SumsLanes e.size hred) (p : PPred α) (xs : List α) (hf : e.Fits xs.length)
    (hr : ReachesAlignment e xs.length) (ha : e.pol.assumeMatchingSize = true → e.size ∣ xs.length) :
    (∃ pieces : List (List α × List Bool), (pieces.map (·.1)).flatten = xs ∧
      (∀ x ∈ pieces, p x.1.length x.1 = .ok x.2 ∧ x.2.length = x.1.length) ∧
      ((pieces.map (·.2)).flatten.count true < 2 ^ 31 → countIfP e hred p xs = .ok ((pieces.map (·.2)).flatten.count true : Nat)) ∧
      (2 ^ 31 ≤ (pieces.map (·.2)).flatten.count true → ∃ u, countIfP e hred p xs = .ub u)) ∨
    (∃ x, x <:+: xs ∧ (∀ k, p x.length x = .ok k → k.length ≠ x.length) ∧ ∀ r, countIfP e hred p xs ≠ .ok r) := by
  have hsim := countIf_unlogged wf.size_pos hred (exits p) (.ok ()) [] xs
  rcases countIf_effects wf hce hpt hh (exits p) (.ok ()) xs hf hr ha with ⟨s', log, h1, h2, h3, h4⟩ | ⟨s', log, last, h1, h2, h3, h4, h5⟩
  · left
    obtain ⟨hs', hev⟩ := trace_exits log _ _ h3 h1
    have hsum : truesP log = ((log.map fun ev => (ev.arg, ev.result.getD [])).map (·.2)).flatten.count true := by
      rw [List.map_map, List.count_flatten, List.map_map]
      rfl
    refine ⟨log.map fun ev => (ev.arg, ev.result.getD []), ?_, ?_, ?_, ?_⟩
    · rw [List.map_map]; exact h2
    · intro x hx
      obtain ⟨ev, he, rfl⟩ := List.mem_map.1 hx
      obtain ⟨k, g1, g2, g3⟩ := hev ev he
      simp only [g3, Option.getD_some]
      exact ⟨g1, g2⟩
    · intro hlt
      rw [← hsum] at hlt ⊢
      rw [if_pos hlt] at h4
      unfold countIfP
      rw [Sim.of_ok hsim h4]
      rfl
    · intro hge
      rw [← hsum] at hge
      rw [if_neg (by omega)] at h4
      rw [h4] at hsim
      unfold countIfP
      revert hsim
      cases countIfT e hred (exits p) (.ok ()) xs with
      | ub u => exact fun _ => ⟨u, rfl⟩
      | ok a => exact fun h => h.elim
      | trap => exact fun h => h.elim
  · right
    obtain ⟨s1, g1, g2⟩ := trace_split log [last] _ _ h4
    have hne := exits_none (g2.1.trans h2)
    have hs' : s' = ((exits p).call s1 last.arg).1 := g2.2
    refine ⟨last.arg, infix_piece (ls := (log ++ [last]).map PEvent.arg) (by simp) h3, hne.1, fun r hr' => ?_⟩
    unfold countIfP at hr'
    rcases h5 with h5 | ⟨h5, _⟩
    · rw [Sim.of_ok hsim h5, Outcome.bind_ok] at hr'
      simp only [] at hr'
      rw [hs'] at hr'
      cases hst : ((exits p).call s1 last.arg).1 with
      | ok u => exact hne.2 hst
      | ub u => rw [hst] at hr'; cases hr'
      | trap => rw [hst] at hr'; cases hr'
    · rw [h5] at hsim
      cases hc : countIfT e hred (exits p) (.ok ()) xs with
      | ub u => rw [hc] at hr'; cases hr'
      | ok a => rw [hc] at hsim; exact hsim.elim
      | trap => rw [hc] at hsim; exact hsim.elim

/-- **C97.** If the predicate is defined for all pieces of the range and tests every element with `q`, the result is the number of elements that
satisfy `q`. -/
theorem countIf_defined {e : Env} (wf : e.WF) (hce : e.constEval = false) (hpt : e.strictPtr = false)
    {hred : List (Outcome Int) → Outcome Int} (hh : SumsLanes e.size hred) (p : PPred α) (xs : List α) (hf : e.Fits xs.length)
    (hr : ReachesAlignment e xs.length) (ha : e.pol.assumeMatchingSize = true → e.size ∣ xs.length) (q : α → Bool)
    (hq : ∀ x, x <:+: xs → p x.length x = .ok (x.map q)) (hc : xs.countP q < 2 ^ 31) : countIfP e hred p xs = .ok (xs.countP q : Nat) := by
  rcases countIf_partialPred wf hce hpt hh p xs hf hr ha with ⟨pieces, h1, h2, h3, _⟩ | ⟨x, h1, h2, _⟩
  · have : (pieces.map (·.2)).flatten = xs.map q := by
      rw [← h1, List.map_flatten, List.map_map]
      congr 1
      refine List.map_congr_left fun x hx => ?_
      have := (h2 x hx).1
      rw [hq x.1 (infix_piece (List.mem_map_of_mem hx) (by rw [h1]; exact List.prefix_rfl))] at this
      exact (Outcome.ok.inj this).symm
    have hcnt : (pieces.map (·.2)).flatten.count true = xs.countP q := by
      rw [this, List.count, List.countP_map]
      congr 1
      funext x
      simp
    rw [hcnt] at h3
    exact h3 hc
  · exact absurd (by simp) (h2 _ (hq x h1))

variable {ty : IntTy} {ts : List IntTy} {nm out : Nat} {p : Stmt}

private theorem start_one {w i : Nat} {x : List Int} (hx : x.length = w) (hi : i < w) (nt nm : Nat) :
    laneOf ⟨x :: List.replicate nt (List.replicate w 0), List.replicate nm (List.replicate w false)⟩ i =
      (x[i] :: List.replicate nt 0, List.replicate nm false) := by
  have := start_lane (args := [x]) (nt := nt) (nm := nm) hi
  simp only [List.filterMap_cons, List.getElem?_eq_getElem (show i < x.length by omega), List.filterMap_nil, List.cons_append,
    List.nil_append] at this
  exact this

private theorem mask_lane {w i : Nat} {s : State} (hs : HasShape (ty :: ts) nm w s) (hi : i < w) (j : Nat) :
    (laneOf s i).2[j]? = (s.masks[j]?).bind (·[i]?) := by
  unfold laneOf
  simp only []
  rw [(filterMap_lane (fun x hx => by rw [hs.mask x hx]; exact hi) j).1]

/-- With enough fuel the program tests every lane of its argument. -/
theorem progPred_value (hts : VarTypes (ty :: ts)) (hp : Typed (ty :: ts) nm p) (hout : out < nm) (q : Int → Bool) (x : List Int)
    (hx : LanesOf ty x) (hd : ∀ y ∈ x, ProgMask ts.length nm out p y (q y)) :
    ∃ N, ∀ n, N ≤ n → progPred ts.length nm out p n x.length x = .ok (x.map q) := by
  have hs : HasShape (ty :: ts) nm x.length ⟨x :: List.replicate ts.length (List.replicate x.length 0),
      List.replicate nm (List.replicate x.length false)⟩ :=
    start_shape (m := 1) (args := [x]) rfl (fun a ha => by rw [List.mem_singleton.1 ha]; exact ⟨rfl, hx⟩) nm
  obtain ⟨f, hf⟩ := choose_below (w := x.length) (P := fun i (l : Lane) =>
    ∃ y, x[i]? = some y ∧ LaneRun p (y :: List.replicate ts.length 0, List.replicate nm false) l ∧ l.2[out]? = some (q y)) fun i hi => by
      obtain ⟨l, h1, h2⟩ := hd x[i] (List.getElem_mem hi)
      exact ⟨l, x[i], List.getElem?_eq_getElem hi, h1, h2⟩
  obtain ⟨s', N, hs', hl', hrun⟩ := prog_lanes hts p hp _ hs f fun i hi => by
    obtain ⟨y, h1, h2, _⟩ := hf i hi
    rw [start_one rfl hi]
    rw [List.getElem?_eq_getElem hi] at h1
    cases h1
    exact h2
  have hk : out < s'.masks.length := by rw [hs'.masks]; exact hout
  refine ⟨N, fun n hn => ?_⟩
  unfold progPred
  rw [hrun n hn, Outcome.bind_ok]
  unfold SimdProg.get
  rw [List.getElem?_eq_getElem hk]
  refine congrArg Outcome.ok ?_
  have hlen : s'.masks[out].length = x.length := hs'.mask _ (List.getElem_mem hk)
  apply List.ext_getElem (by simp [hlen])
  intro i g1 g2
  have hi : i < x.length := by omega
  obtain ⟨y, h1, _, h3⟩ := hf i hi
  rw [← hl' i hi, mask_lane hs' hi, List.getElem?_eq_getElem hk, Option.bind_some, List.getElem?_eq_getElem g1] at h3
  rw [List.getElem?_eq_getElem hi] at h1
  rw [List.getElem_map, Option.some.inj h1]
  exact Option.some.inj h3

/-- Whatever mask a program returns, its lanes got there. -/
theorem progPred_sound (hts : VarTypes (ty :: ts)) (hp : Typed (ty :: ts) nm p) {idle : Prop} (hi : idle ∨ MaskedLoops p) (fuel : Nat) (x : List Int)
    (hx : LanesOf ty x) {k : List Bool} (h : progPred ts.length nm out p fuel x.length x = .ok k) :
    Answers (fun y b => StepsMask idle ts.length nm out p y b) x k := by
  have hs : HasShape (ty :: ts) nm x.length ⟨x :: List.replicate ts.length (List.replicate x.length 0),
      List.replicate nm (List.replicate x.length false)⟩ :=
    start_shape (m := 1) (args := [x]) rfl (fun a ha => by rw [List.mem_singleton.1 ha]; exact ⟨rfl, hx⟩) nm
  unfold progPred at h
  cases hrun : p.run x.length fuel ⟨x :: List.replicate ts.length (List.replicate x.length 0), List.replicate nm (List.replicate x.length false)⟩ with
  | ub u => rw [hrun] at h; cases h
  | trap => rw [hrun] at h; cases h
  | ok s' =>
    rw [hrun, Outcome.bind_ok] at h
    obtain ⟨hs', hst⟩ := prog_sound hts p hp _ s' hs fuel hrun
    unfold SimdProg.get at h
    split at h
    · rename_i k' hk
      cases h
      have hlen := hs'.mask _ (List.mem_of_getElem? hk)
      refine ⟨hlen, fun i y b hy hb => ?_⟩
      obtain ⟨hiw, hy⟩ := List.getElem?_eq_some_iff.1 hy
      refine ⟨laneOf s' i, ?_, by rw [mask_lane hs' hiw, hk]; exact hb⟩
      rw [← hy, ← start_one rfl hiw]
      by_cases hid : idle
      · rw [eq_true hid]
        exact hst i hiw
      · rw [eq_false hid]
        exact prog_sound_masked hts p hp (hi.resolve_left hid) _ s' hs fuel hrun hiw
    · cases h

theorem infix_bound {xs : List α} {P : List α → Nat → Prop} (h : ∀ x, x <:+: xs → ∃ N, ∀ n, N ≤ n → P x n) :
    ∃ N, ∀ n, N ≤ n → ∀ x, x <:+: xs → P x n := by
  obtain ⟨C, hC⟩ := bound_below (P := fun i c => ∀ j, j < xs.length + 1 → ∀ n, c ≤ n → P ((xs.drop i).take j) n) (xs.length + 1) fun i _ => by
    obtain ⟨C, hC⟩ := bound_below (P := fun j c => ∀ n, c ≤ n → P ((xs.drop i).take j) n) (xs.length + 1) fun j _ =>
      h _ ((List.take_prefix _ _).isInfix.trans (List.drop_suffix _ _).isInfix)
    exact ⟨C, fun j hj n hn => by
      obtain ⟨c, h1, h2⟩ := hC j hj
      exact h2 n (by omega)⟩
  refine ⟨C, fun n hn x hx => ?_⟩
  obtain ⟨a, b, rfl⟩ := hx
  obtain ⟨c, h1, h2⟩ := hC a.length (by simp; omega)
  have := h2 x.length (by simp; omega) n (by omega)
  rwa [List.append_assoc, List.drop_left, List.take_left] at this

/-- **C97.** `count_if` with a simd program as predicate (loops until no lane is active, masked assignments, several types): if the program on
numbers ends for every element, with the answer `q`, the result is the number of elements for which `q` holds, whichever elements share
a simd. -/
theorem countIf_prog {e : Env} (wf : e.WF) (hce : e.constEval = false) (hpt : e.strictPtr = false) {hred : List (Outcome Int) → Outcome Int}
    (hh : SumsLanes e.size hred) (xs : List Int) (hf : e.Fits xs.length) (hr : ReachesAlignment e xs.length)
    (ha : e.pol.assumeMatchingSize = true → e.size ∣ xs.length) (hx : LanesOf ty xs) (hts : VarTypes (ty :: ts)) (hp : Typed (ty :: ts) nm p)
    (hout : out < nm) (q : Int → Bool) (hd : ∀ x ∈ xs, ProgMask ts.length nm out p x (q x)) (hc : xs.countP q < 2 ^ 31) :
    ∃ N, ∀ n, N ≤ n → countIfP e hred (progPred ts.length nm out p n) xs = .ok (xs.countP q : Nat) := by
  obtain ⟨N, hN⟩ := infix_bound (xs := xs) (P := fun x n => progPred ts.length nm out p n x.length x = .ok (x.map q)) fun x hxs =>
    progPred_value hts hp hout q x (fun y hy => hx y (hxs.subset hy)) fun y hy => hd y (hxs.subset hy)
  exact ⟨N, fun n hn => countIf_defined wf hce hpt hh _ xs hf hr ha q (hN n hn) hc⟩

theorem answers_nil {A : Type} {R : A → Bool → Prop} : Answers R [] [] := ⟨rfl, by simp⟩

theorem answers_append {A : Type} {R : A → Bool → Prop} {a a' : List A} {b b' : List Bool} (h : Answers R a b) (h' : Answers R a' b') :
    Answers R (a ++ a') (b ++ b') := by
  refine ⟨by simp [h.1, h'.1], fun i x y hx hy => ?_⟩
  by_cases hi : i < a.length
  · rw [List.getElem?_append_left hi] at hx
    rw [List.getElem?_append_left (by have := h.1; omega)] at hy
    exact h.2 i x y hx hy
  · rw [List.getElem?_append_right (by omega)] at hx
    rw [List.getElem?_append_right (by have := h.1; omega), h.1] at hy
    exact h'.2 _ x y hx hy

/-- **C97.** Conversely, whatever `count_if` with a simd program returns is the number of elements for which the statements of the program lead
to `true`; if everything in loop bodies is masked with the mask of the loop (`idle` false) this is the program on numbers. In particular,
if that is undefined or does not end for some element, the call is undefined or does not end. -/
theorem countIf_prog_sound {e : Env} (wf : e.WF) (hce : e.constEval = false) (hpt : e.strictPtr = false)
    {hred : List (Outcome Int) → Outcome Int} (hh : SumsLanes e.size hred) (xs : List Int) (hf : e.Fits xs.length)
    (hr : ReachesAlignment e xs.length) (ha : e.pol.assumeMatchingSize = true → e.size ∣ xs.length) (hx : LanesOf ty xs)
    (hts : VarTypes (ty :: ts)) (hp : Typed (ty :: ts) nm p) {idle : Prop} (hi : idle ∨ MaskedLoops p) {n : Nat} {r : Int}
    (h : countIfP e hred (progPred ts.length nm out p n) xs = .ok r) :
    ∃ bs, Answers (fun x b => StepsMask idle ts.length nm out p x b) xs bs ∧ r = (bs.count true : Nat) := by
  rcases countIf_partialPred wf hce hpt hh (progPred ts.length nm out p n) xs hf hr ha with ⟨pieces, h1, h2, h3, h4⟩ | ⟨x, _, _, h3⟩
  · refine ⟨(pieces.map (·.2)).flatten, ?_, ?_⟩
    · have hx' : ∀ x ∈ pieces, LanesOf ty x.1 := fun x hm y hy => hx y (by
        rw [← h1]
        exact List.mem_flatten.2 ⟨x.1, List.mem_map_of_mem hm, hy⟩)
      rw [← h1]
      clear h1 h3 h4
      induction pieces with
      | nil => exact answers_nil
      | cons x pieces ih =>
        simp only [List.map_cons, List.flatten_cons]
        exact answers_append (progPred_sound hts hp hi n x.1 (hx' x (by simp)) (h2 x (by simp)).1)
          (ih (fun y hy => h2 y (by simp [hy])) fun y hy => hx' y (by simp [hy]))
    · by_cases hc : (pieces.map (·.2)).flatten.count true < 2 ^ 31
      · rw [h3 hc] at h
        exact (Outcome.ok.inj h).symm
      · obtain ⟨u, hu⟩ := h4 (by omega)
        rw [hu] at h
        cases h
  · exact absurd h (h3 r)

/-- `b = m;` Euclid's algorithm for `a` and `b`; `k = a == 1`. -/
def Spec.coprime (t : IntTy) (m : Int) : Stmt :=
  .seq (.assign 1 (.lit t m)) (.seq (euclid t) (.setMask 0 (.cmp .eq t (.var 0) (.lit t 1))))

theorem coprime_value {t : IntTy} (ht : 1 < t.bits) (m x : Nat) (hm : t.Has m) : ProgMask 2 1 0 (coprime t m) x (decide (Nat.Coprime x m)) := by
  obtain ⟨c, h⟩ := euclid_lane (t := t) has_zero x m 0 false
  have h1 : ∀ {xs : List Int}, ExValue xs (.lit t 1) 1 := .lit ⟨by
    have a1 : 2 ^ 1 ≤ 2 ^ (t.bits - 1) := Nat.pow_le_pow_right (by decide) (by omega)
    have a2 : 2 ^ 1 ≤ 2 ^ t.bits := Nat.pow_le_pow_right (by decide) (by omega)
    have b1 : ((2 ^ (t.bits - 1) : Nat) : Int) = 2 ^ (t.bits - 1) := by push_cast; rfl
    have b2 : ((2 ^ t.bits : Nat) : Int) = 2 ^ t.bits := by push_cast; rfl
    unfold IntTy.Has IntTy.lowest IntTy.max
    split <;> constructor <;> omega, by simp⟩
  refine ⟨([(Nat.gcd x m : Int), 0, c], [decide (Nat.Coprime x m)]), .seq (.assign (v := m) (.lit ⟨hm, by simp⟩)) (.seq h (.setMask (l := ([(Nat.gcd x m : Int), 0, c], [false])) ?_)), rfl⟩
  by_cases hg : Nat.Coprime x m
  · rw [decide_eq_true hg]
    exact .cmp_true (.var rfl) h1 (by unfold Nat.Coprime at hg; simp [cmpHolds, hg])
  · rw [decide_eq_false hg]
    exact .cmp_false (.var rfl) h1 (by unfold Nat.Coprime at hg; simp only [cmpHolds]; omega)

/-- **C97 (a whole algorithm).** Euclid's algorithm as predicate: `count_if` returns the number of elements that are coprime to `m`. -/
theorem countIf_coprime {e : Env} (wf : e.WF) (hce : e.constEval = false) (hpt : e.strictPtr = false) {hred : List (Outcome Int) → Outcome Int}
    (hh : SumsLanes e.size hred) (xs : List Nat) (hf : e.Fits xs.length) (hr : ReachesAlignment e xs.length)
    (ha : e.pol.assumeMatchingSize = true → e.size ∣ xs.length) (t : IntTy) (ht : ValidTy t) (hb : 1 < t.bits) (hx : ∀ x ∈ xs, t.Has x) (m : Nat)
    (hm : t.Has m) (hc : xs.length < 2 ^ 31) :
    ∃ N, ∀ n, N ≤ n → countIfP e hred (progPred 2 1 0 (coprime t m) n) (xs.map Int.ofNat) =
      .ok ((xs.countP fun x => decide (Nat.Coprime x m) : Nat) : Int) := by
  have hcnt : (xs.map Int.ofNat).countP (fun x => decide (Nat.Coprime x.toNat m)) = xs.countP fun x => decide (Nat.Coprime x m) := by
    rw [List.countP_map]
    rfl
  have := countIf_prog (ty := t) (ts := [t, t]) (nm := 1) (out := 0) (p := coprime t m) wf hce hpt hh (xs.map Int.ofNat)
    (by simpa using hf) (by simpa using hr) (by simpa using ha) (fun y hy => by
      obtain ⟨x, h, rfl⟩ := List.mem_map.1 hy
      exact hx x h)
    (fun t' h => by
      have : t' = t := by simpa using h
      subst this
      exact ⟨ht, hb⟩)
    (by simp [coprime, euclid, euclidBody, Typed, MkTyped, ExTyped, ht]) (by decide) (fun x => decide (Nat.Coprime x.toNat m))
    (fun y hy => by
      obtain ⟨x, h, rfl⟩ := List.mem_map.1 hy
      exact coprime_value hb m x hm)
    (by rw [hcnt]; exact Nat.lt_of_le_of_lt List.countP_le_length hc)
  rwa [hcnt] at this

/-! ### the theorems are about something -/

private theorem valid32 : ValidTy i32 := by unfold ValidTy; decide
private theorem reach23 : ReachesAlignment exampleEnv 23 := fun _ _ _ _ => Or.inr ⟨3, by decide, by decide⟩
private theorem types32 : VarTypes [i32, i32, i32] := fun t' h => by
  have : t' = i32 := by simpa using h
  subst this
  exact ⟨valid32, by decide⟩

/-- Of 0, …, 22 the numbers 1, 5, 7, 11, 13, 17, 19 are coprime to 12. -/
example : ∃ N, ∀ n, N ≤ n → countIfP exampleEnv fallbackSum (progPred 2 1 0 (coprime i32 12) n) ((List.range 23).map Int.ofNat) = .ok 7 := by
  have := countIf_coprime exampleEnv_wf rfl rfl (fallbackSum_sumsLanes (by decide) (by decide)) (List.range 23)
    (by unfold Env.Fits; decide) reach23 (by intro h; revert h; decide) i32 valid32 (by decide) (by decide) 12 (by decide) (by decide)
  exact this
-- the same run, executed; too little fuel
example : countIfP exampleEnv fallbackSum (progPred 2 1 0 (coprime i32 12) 10) ((List.range 23).map Int.ofNat) = .ok 7 := by decide +kernel
example : countIfP exampleEnv fallbackSum (progPred 2 1 0 (coprime i32 12) 1) ((List.range 23).map Int.ofNat) = .ub .diverge := by decide +kernel

example {n : Nat} {r : Int} (h : countIfP exampleEnv fallbackSum (progPred 2 1 0 (coprime i32 12) n) ((List.range 23).map Int.ofNat) = .ok r) :=
  countIf_prog_sound (ty := i32) (ts := [i32, i32]) (idle := False) (p := coprime i32 12) exampleEnv_wf rfl rfl (fallbackSum_sumsLanes (by decide) (by decide))
    ((List.range 23).map Int.ofNat)
    (by unfold Env.Fits; decide) reach23 (by intro h; revert h; decide) (by unfold LanesOf; decide) types32
    (by simp [coprime, euclid, euclidBody, Typed, MkTyped, ExTyped, valid32])
    (Or.inr ⟨trivial, ⟨trivial, 0, rfl, by simp [euclidBody, MaskedBy]⟩, trivial⟩) h

/-- `12 / x > 2`, undefined for zeros. -/
private def quot : PPred Int := fun _ x => if 0 ∈ x then .ub .div0 else .ok (x.map fun y => decide (12 / y > 2))

example := countIf_partialPred exampleEnv_wf rfl rfl (fallbackSum_sumsLanes (by decide) (by decide)) quot ((List.range 23).map Int.ofNat)
  (by unfold Env.Fits; decide) reach23 (by intro h; revert h; decide)
example : countIfP exampleEnv fallbackSum quot ((List.range 23).map Int.ofNat) = .ub .div0 := by decide +kernel
example : countIfP exampleEnv fallbackSum quot ((List.range' 1 23).map Int.ofNat) = .ok 4 := by
  have := countIf_defined exampleEnv_wf rfl rfl (fallbackSum_sumsLanes (by decide) (by decide)) quot ((List.range' 1 23).map Int.ofNat)
    (by unfold Env.Fits; decide) reach23 (by intro h; revert h; decide) (fun y => decide (12 / y > 2)) (fun x hx => by
      unfold quot
      rw [if_neg]
      intro h0
      have := hx.subset h0
      revert this
      decide) (by decide)
  exact this.trans (by decide)

end Vir
