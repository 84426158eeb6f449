import Verif.Lemmas.ListAux
import Verif.Lemmas.Bits

namespace Vir
open Spec ForEach

variable {σ α : Type}

/-- Phase predicate: `g`, started with the first `p` elements of a range of `n` elements already processed,
runs exactly the invocations `cs` on the following elements. -/
def Does (f : Callable σ α) (wb : Bool) (n p : Nat) (cs : List Call)
    (g : St σ α → Outcome (St σ α)) : Prop :=
  ∀ s outs rest, outs.length = p → p + rest.length = n →
    g (s, outs ++ rest) = .ok ((run f wb cs s rest).1, outs ++ (run f wb cs s rest).2)

theorem Does.nil (f : Callable σ α) (wb : Bool) (n p : Nat) : Does f wb n p [] (fun st => .ok st) := by
  intro s outs rest _ _; rfl

theorem Does.comp {f : Callable σ α} {wb : Bool} {n p : Nat} {a b : List Call} {g h}
    (hg : Does f wb n p a g) (hh : Does f wb n (p + elems a) b h) (hn : p + elems a ≤ n) :
    Does f wb n p (a ++ b) (fun st => g st >>= h) := by
  intro s outs rest ho hr
  have hl : elems a ≤ rest.length := by omega
  simp only [hg s outs rest ho hr, Outcome.bind_ok]
  have h1 : run f wb a s rest =
      ((run f wb a s (rest.take (elems a))).1,
        (run f wb a s (rest.take (elems a))).2 ++ rest.drop (elems a)) := by
    have := run_append f wb a [] s rest hl
    simpa [run] using this
  have h2 := run_append f wb a b s rest hl
  have hlen : (run f wb a s (rest.take (elems a))).2.length = elems a := by
    rw [run_length _ _ _ _ _ (by simp; omega)]; simp; omega
  rw [h1]
  simp only
  rw [← List.append_assoc, hh _ (outs ++ (run f wb a s (rest.take (elems a))).2) (rest.drop (elems a))
    (by simp [hlen, ho]) (by simp; omega), h2]
  simp

/-- Alignment holds for the accesses of widths `ws` laid out one after the other from position `p`. -/
def AlignedSeq (e : Env) : Nat → List Nat → Prop
  | _, [] => True
  | p, w :: ws => alignedAt e p w = true ∧ AlignedSeq e (p + w) ws

theorem loadAll_eq (e : Env) (aligned : Bool) (w k : Nat) (outs rest : List α)
    (hal : aligned = true → AlignedSeq e outs.length (List.replicate k w)) (hn : w * k ≤ rest.length) :
    loadAll e (outs ++ rest) aligned w k (outs.length : Int) = .ok (chunks w k rest) := by
  induction k generalizing outs rest with
  | zero => rfl
  | succ k ih =>
    rw [Nat.mul_succ] at hn
    simp only [loadAll]
    have h1 : load e (outs ++ rest) aligned w (outs.length : Int) = .ok (rest.take w) := by
      have hr : inRange (outs ++ rest).length (outs.length : Int) w = true := by
        simp [inRange]; omega
      have ha : (aligned && !alignedAt e (outs.length : Int) w) = false := by
        cases aligned with
        | false => rfl
        | true => simp [(hal rfl).1]
      unfold load
      rw [hr, ha]
      simp
    have h2 := ih (outs ++ rest.take w) (rest.drop w) (fun h => by
        have := (hal h).2
        simpa [List.replicate_succ, Nat.min_eq_left (show w ≤ rest.length by omega)] using this)
      (by simp; omega)
    have h3 : ((outs ++ rest.take w).length : Int) = (outs.length : Int) + w := by
      simp; omega
    rw [h3, List.append_assoc, List.take_append_drop] at h2
    simp [h1, h2, chunks]

theorem storeAll_eq (e : Env) (aligned : Bool) (w : Nat) (cs : List (List α)) (outs rest : List α)
    (hal : aligned = true → AlignedSeq e outs.length (List.replicate cs.length w))
    (hcs : cs.map List.length = List.replicate cs.length w) (hn : w * cs.length ≤ rest.length) :
    storeAll e aligned w cs (outs.length : Int) (outs ++ rest) =
      .ok (outs ++ cs.flatten ++ rest.drop (w * cs.length)) := by
  induction cs generalizing outs rest with
  | nil => simp [storeAll]
  | cons c cs ih =>
    simp only [List.length_cons, Nat.mul_succ] at hn
    simp only [List.map_cons, List.length_cons, List.replicate_succ, List.cons.injEq] at hcs
    obtain ⟨hc, hcs⟩ := hcs
    simp only [storeAll]
    have h1 : store e (outs ++ rest) aligned w (outs.length : Int) c =
        .ok ((outs ++ c) ++ rest.drop w) := by
      have hr : inRange (outs ++ rest).length (outs.length : Int) w = true := by
        simp [inRange]; omega
      have ha : (aligned && !alignedAt e (outs.length : Int) w) = false := by
        cases aligned with
        | false => rfl
        | true => simp [(hal rfl).1]
      unfold store
      rw [hr, ha]
      simp
    have h2 := ih (outs ++ c) (rest.drop w) (fun h => by
        have := (hal h).2
        simpa [List.replicate_succ, hc] using this) hcs (by simp; omega)
    have h3 : ((outs ++ c).length : Int) = (outs.length : Int) + w := by
      simp [hc]
    rw [h3] at h2
    simp only [h1, Outcome.bind_ok, h2]
    simp [List.drop_drop, Nat.mul_succ, Nat.add_comm]

/-- `simd_load_and_invoke` performs exactly one invocation. -/
theorem does_loadAndInvoke (e : Env) (wb : Bool) (f : Callable σ α) (w : Nat) (aligned : Bool) (k n p : Nat)
    (hal : aligned = true → AlignedSeq e p (List.replicate k w)) (hn : p + w * k ≤ n) :
    Does f wb n p [⟨w, k⟩] (loadAndInvoke e wb f w aligned k (p : Int)) := by
  intro s outs rest ho hr
  subst ho
  have h1 := loadAll_eq e aligned w k outs rest hal (by omega)
  simp only [loadAndInvoke, h1, Outcome.bind_ok]
  have hsh := f.shape s (chunks w k rest)
  have hlen : (f.call s (chunks w k rest)).2.length = k := by
    have := congrArg List.length hsh
    simpa using this
  rw [chunks_map_length _ _ _ (by omega)] at hsh
  cases wb with
  | true =>
    have h2 := storeAll_eq e aligned w (f.call s (chunks w k rest)).2 outs rest
      (by rw [hlen]; exact hal) (by rw [hlen]; exact hsh) (by rw [hlen]; omega)
    simp only [if_true, h2, Outcome.bind_ok]
    simp [run, Call.elems, hlen]
  | false =>
    simp [run, Call.elems]

/-- Single-argument invocations of the given widths. -/
def singles (ws : List Nat) : List Call := ws.map (⟨·, 1⟩)

@[simp] theorem elems_singles (ws : List Nat) : elems (singles ws) = ws.sum := by
  induction ws with
  | nil => rfl
  | cons w ws ih => simp only [singles, List.map_cons] at *; simp [Call.elems, ih]
@[simp] theorem singles_nil : singles [] = [] := rfl
@[simp] theorem singles_append (a b) : singles (a ++ b) = singles a ++ singles b := by simp [singles]
theorem singles_cons (a b) : singles (a :: b) = ⟨a, 1⟩ :: singles b := by simp [singles]

theorem alignedSeq_append (e : Env) (p : Nat) (a b : List Nat) :
    AlignedSeq e p (a ++ b) ↔ AlignedSeq e p a ∧ AlignedSeq e (p + a.sum) b := by
  induction a generalizing p with
  | nil => simp [AlignedSeq]
  | cons w a ih => simp [AlignedSeq, ih, and_assoc, Nat.add_assoc]

theorem does_single (e : Env) (wb : Bool) (f : Callable σ α) (w : Nat) (aligned : Bool) (n p : Nat)
    (hal : aligned = true → alignedAt e p w = true) (hn : p + w ≤ n) :
    Does f wb n p (singles [w]) (loadAndInvoke e wb f w aligned 1 (p : Int)) := by
  refine does_loadAndInvoke e wb f w aligned 1 n p (fun h => ⟨hal h, trivial⟩) (by omega)

/-- Widths processed by following the labels of a jump table. -/
def tableWidths (table : List (Nat × Nat)) : Nat → Nat → Option (List Nat)
  | 0, _ => none
  | fuel + 1, n =>
    if n = 0 then some []
    else match table.lookup n with
      | none => none
      | some m => if m < n then (tableWidths table fuel m).map ((n - m) :: ·) else none

theorem does_jumpFrom (e : Env) (wb : Bool) (f : Callable σ α) (table : List (Nat × Nat)) (bound : Nat)
    (aligned : Bool) (fuel n N p : Nat) (ws : List Nat) (hws : tableWidths table fuel n = some ws)
    (hb : n < bound) (hal : aligned = true → AlignedSeq e p ws) (hN : p + ws.sum ≤ N) :
    Does f wb N p (singles ws) (jumpFrom e wb f table bound aligned fuel n (p : Int)) := by
  induction fuel generalizing n p ws with
  | zero => simp [tableWidths] at hws
  | succ fuel ih =>
    intro s outs rest ho hr
    simp only [tableWidths] at hws
    simp only [jumpFrom]
    by_cases hn : n = 0
    · simp only [hn, if_true, Option.some.injEq] at hws
      subst hws
      simp only [hn, if_true]
      exact Does.nil f wb N p s outs rest ho hr
    · simp only [hn, if_false] at hws ⊢
      cases hl : table.lookup n with
      | none => simp [hl] at hws
      | some m =>
        simp only [hl] at hws ⊢
        by_cases hm : m < n
        · simp only [hm, if_true, Option.map_eq_some_iff] at hws
          obtain ⟨ws', hws', rfl⟩ := hws
          rw [if_neg (by omega)]
          simp only [List.sum_cons] at hN
          have d1 := does_single e wb f (n - m) aligned N p (fun h => (hal h).1) (by omega)
          have d2 := ih m (p + (n - m)) ws' hws' (by omega) (fun h => (hal h).2) (by omega)
          have d3 := Does.comp d1 (by simpa using d2) (by simp; omega)
          have := d3 s outs rest ho hr
          simpa [singles] using this
        · simp [hm] at hws

theorem does_jumpTable (e : Env) (wb : Bool) (f : Callable σ α) (table : List (Nat × Nat)) (bound : Nat)
    (aligned : Bool) (n N p : Nat) (ws : List Nat) (hws : tableWidths table (n + 1) n = some ws)
    (h0 : n ≠ 0) (hb : n < bound) (hal : aligned = true → AlignedSeq e p ws) (hN : p + ws.sum ≤ N) :
    Does f wb N p (singles ws) (jumpTable e wb f table bound aligned n (p : Int)) := by
  intro s outs rest ho hr
  have : ∃ m, table.lookup n = some m := by
    simp only [tableWidths, h0, if_false] at hws
    cases hl : table.lookup n with
    | none => simp [hl] at hws
    | some m => exact ⟨m, rfl⟩
  obtain ⟨m, hm⟩ := this
  simp only [jumpTable, hm]
  exact does_jumpFrom e wb f table bound aligned _ n N p ws hws hb hal hN s outs rest ho hr

/-- The prologue table below 32 lists the set bits in ascending order. -/
theorem prologueTable_asc : ∀ n : Fin 32, tableWidths prologueTable (n.val + 1) n = some (bitsAsc n) := by
  decide +kernel

/-- The epilogue table lists the set bits in descending order. -/
theorem epilogueTable_desc : ∀ n : Fin 64, tableWidths epilogueTable (n.val + 1) n = some (bitsDesc n) := by
  decide +kernel

theorem prologueTable_asc' {n : Nat} (h : n < 32) :
    tableWidths prologueTable (n + 1) n = some (bitsAsc n) := prologueTable_asc ⟨n, h⟩
theorem epilogueTable_desc' {n : Nat} (h : n < 64) :
    tableWidths epilogueTable (n + 1) n = some (bitsDesc n) := epilogueTable_desc ⟨n, h⟩

/-- The bit-by-bit part of the prologue. -/
theorem does_prologueRec_aux (e : Env) (wb : Bool) (f : Callable σ α) (K tp k m N : Nat)
    (hK : 1 < K) (h0 : tp ≠ 0) (ht : tp < 2 ^ K) (hk : k + m = K) (hm : 0 < m) (hkk : 0 < k ∨
      (!e.optSize && decide (2 ^ k = 1 ∧ 2 ^ K < 64) && !e.constEval) = false)
    (hal : AlignedSeq e (tp % 2 ^ k) (ascBits tp k m)) (hN : tp ≤ N) :
    Does f wb N (tp % 2 ^ k) (singles (ascBits tp k m))
      (prologueRec e wb f (2 ^ K) tp k ((tp % 2 ^ k : Nat) : Int)) := by
  induction m generalizing k with
  | zero => omega
  | succ m ih =>
    intro s outs rest ho hr
    have hmax : (2 : Nat) ^ 1 < 2 ^ K := Nat.pow_lt_pow_right (by omega) hK
    have hjt : (!e.optSize && decide (2 ^ k = 1 ∧ 2 ^ K < 64) && !e.constEval) = false := by
      rcases hkk with h | h
      · have : (2 : Nat) ^ 0 < 2 ^ k := Nat.pow_lt_pow_right (by omega) h
        have : decide (2 ^ k = 1 ∧ 2 ^ K < 64) = false := by
          rw [decide_eq_false_iff_not]; omega
        rw [this]; simp
      · exact h
    unfold prologueRec
    rw [if_neg (by simp [hasSingleBit_two_pow]; omega), if_neg (by omega), if_neg (by omega), hjt]
    simp only [Bool.false_eq_true, if_false]
    have hlt : 2 ^ k < 2 ^ K := Nat.pow_lt_pow_right (by omega) (by omega)
    have hsum := ascBits_sum tp k (m + 1)
    rw [hk, Nat.mod_eq_of_lt ht] at hsum
    simp only [ascBits, List.sum_append] at hsum
    simp only [ascBits] at hal ⊢
    have hmod := mod_two_pow_succ' tp k
    -- the continuation
    have cont : ∀ s' outs' rest', outs'.length = tp % 2 ^ (k + 1) → tp % 2 ^ (k + 1) + rest'.length = N →
        (if _h : 2 ^ k * 2 < 2 ^ K then
            prologueRec e wb f (2 ^ K) tp (k + 1) ((tp % 2 ^ (k + 1) : Nat) : Int) (s', outs' ++ rest')
          else Outcome.ok (s', outs' ++ rest')) =
          .ok ((run f wb (singles (ascBits tp (k + 1) m)) s' rest').1,
            outs' ++ (run f wb (singles (ascBits tp (k + 1) m)) s' rest').2) := by
      intro s' outs' rest' ho' hr'
      by_cases hmz : m = 0
      · subst hmz
        have hkK : k + 1 = K := by omega
        rw [dif_neg (by rw [← Nat.pow_succ, show k.succ = K from hkK]; omega)]
        simp [ascBits, run]
      · have h2 : 2 ^ (k + 1) < 2 ^ K := Nat.pow_lt_pow_right (by omega) (by omega)
        rw [dif_pos (by rw [Nat.pow_succ] at h2; exact h2)]
        refine ih (k + 1) (by omega) (by omega) (Or.inl (by omega)) ?_ s' outs' rest' ho' hr'
        rw [alignedSeq_append] at hal
        have := hal.2
        rw [hmod]
        cases hb : tp.testBit k
        · simpa [hb] using this
        · simpa [hb] using this
    by_cases hb : tp.testBit k = true
    · have hne : (2 ^ k &&& tp) ≠ 0 := (two_pow_and_ne_zero k tp).2 hb
      simp only [hb, if_true] at hal hmod hsum ⊢
      rw [if_pos hne]
      simp only [List.cons_append, List.nil_append, AlignedSeq] at hal
      have d1 := does_single e wb f (2 ^ k) true N (tp % 2 ^ k) (fun _ => hal.1)
        (by simp at hsum; omega)
      have hcast : ((tp % 2 ^ k : Nat) : Int) + ((2 ^ k : Nat) : Int) = ((tp % 2 ^ (k + 1) : Nat) : Int) := by
        rw [hmod]; simp
      have d2 : Does f wb N (tp % 2 ^ k + elems (singles [2 ^ k])) (singles (ascBits tp (k + 1) m))
          (fun st => if _h : 2 ^ k * 2 < 2 ^ K then
            prologueRec e wb f (2 ^ K) tp (k + 1) ((tp % 2 ^ (k + 1) : Nat) : Int) st
          else Outcome.ok st) := by
        intro s' outs' rest' ho' hr'
        refine cont s' outs' rest' ?_ ?_
        · rw [hmod]; simpa using ho'
        · rw [hmod]; simpa using hr'
      have d3 := Does.comp d1 d2 (by simp at hsum ⊢; omega) s outs rest ho hr
      rw [← singles_append] at d3
      rw [← d3]
      simp only [Outcome.bind_ok, hcast]
    · have hne : ¬ (2 ^ k &&& tp) ≠ 0 := fun h => hb ((two_pow_and_ne_zero k tp).1 h)
      simp only [hb, if_false, Bool.false_eq_true, Nat.add_zero] at hal hmod hsum ⊢
      rw [if_neg hne]
      simp only [Outcome.bind_ok]
      have := cont s outs rest (by rw [hmod]; exact ho) (by rw [hmod]; exact hr)
      rw [hmod] at this
      simpa using this

/-- The whole prologue. -/
theorem does_prologueRec (e : Env) (wb : Bool) (f : Callable σ α) (K tp N : Nat)
    (hK : 0 < K) (h0 : tp ≠ 0) (ht : tp < 2 ^ K) (hal : AlignedSeq e 0 (bitsAsc tp)) (hN : tp ≤ N) :
    Does f wb N 0 (singles (bitsAsc tp)) (prologueRec e wb f (2 ^ K) tp 0 0) := by
  by_cases hK1 : K = 1
  · subst hK1
    obtain rfl : tp = 1 := by simp at ht; omega
    intro s outs rest ho hr
    unfold prologueRec
    have : bitsAsc 1 = [1] := by decide
    rw [this] at hal
    simp only [this]
    rw [if_neg (by decide), if_neg (by decide), if_pos (by decide)]
    exact does_single e wb f 1 true N 0 (fun _ => hal.1) (by omega) s outs rest ho hr
  · by_cases hj : (!e.optSize && decide (2 ^ 0 = 1 ∧ 2 ^ K < 64) && !e.constEval) = true
    · intro s outs rest ho hr
      have hmax : (2 : Nat) ^ 1 < 2 ^ K := Nat.pow_lt_pow_right (by omega) (by omega)
      unfold prologueRec
      rw [if_neg (by simp [hasSingleBit_two_pow]; omega), if_neg (by omega), if_neg (by omega), hj]
      simp only [if_true]
      have h64 : 2 ^ K < 2 ^ 6 := by simp at hj; omega
      have hK6 : K < 6 := (Nat.pow_lt_pow_iff_right (by omega)).1 h64
      have h32 : tp < 32 := Nat.lt_of_lt_of_le ht (show 2 ^ K ≤ 2 ^ 5 from Nat.pow_le_pow_right (by omega) (by omega))
      exact does_jumpTable e wb f prologueTable (2 ^ K) true tp N 0 _ (prologueTable_asc' h32) h0 ht
        (fun _ => hal) (by rw [bitsAsc_sum]; omega) s outs rest ho hr
    · have := does_prologueRec_aux e wb f K tp 0 K N (by omega) h0 ht (by omega) hK
        (Or.inr (by simpa using hj)) (by rw [bitsAsc_eq _ _ ht]; simpa [Nat.mod_one] using hal) hN
      rw [bitsAsc_eq _ _ ht] at this
      simpa [Nat.mod_one] using this

/-- The epilogue, for a width between `2^K` (exclusive) and `2^(K+1)`. -/
theorem does_epilogue (e : Env) (wb : Bool) (f : Callable σ α) (K v0 l N : Nat) (aligned : Bool)
    (h1 : 2 ^ K < v0) (h2 : v0 ≤ 2 ^ (K + 1)) (hl : l < v0)
    (h0 : l ≠ 0 ∨ (e.constEval = true ∧ v0 ≠ 2)) (hlN : l ≤ N)
    (hal : aligned = true → AlignedSeq e (N - l) (bitsDesc l)) :
    Does f wb N (N - l) (singles (bitsDesc l)) (epilogue e wb f v0 l (N : Int) aligned) := by
  induction K generalizing v0 l with
  | zero =>
    obtain rfl : v0 = 2 := by simp at h1 h2; omega
    obtain rfl : l = 1 := by rcases h0 with h | h; omega; simp at h
    intro s outs rest ho hr
    unfold epilogue
    have : bitsDesc 1 = [1] := by decide
    rw [this] at hal
    simp only [this]
    rw [dif_neg (by omega), if_pos trivial]
    have := does_single e wb f 1 aligned N (N - 1) (fun h => (hal h).1) (by omega) s outs rest ho hr
    rw [← this]; congr 1; omega
  | succ K ih =>
    have hp := Nat.two_pow_pos K
    have hv : 2 < v0 := by rw [Nat.pow_succ] at h1; omega
    intro s outs rest ho hr
    unfold epilogue
    rw [dif_neg (by omega), if_neg (by omega)]
    have hcast : (N : Int) - (l : Int) = ((N - l : Nat) : Int) := by omega
    have hdl := bitsDesc_sum l
    have jt : l ≠ 0 → v0 ≤ 64 → jumpTable e wb f epilogueTable v0 aligned l ((N : Int) - (l : Int))
          (s, outs ++ rest) = .ok ((run f wb (singles (bitsDesc l)) s rest).1,
            outs ++ (run f wb (singles (bitsDesc l)) s rest).2) := by
      intro hl0 h64
      rw [hcast]
      exact does_jumpTable e wb f epilogueTable v0 aligned l N (N - l) _
        (epilogueTable_desc' (by omega)) hl0 hl hal (by omega) s outs rest ho hr
    by_cases hc1 : (decide (v0 ≤ 4) && !e.constEval) = true
    · rw [if_pos hc1]
      simp only [Bool.and_eq_true, decide_eq_true_eq, Bool.not_eq_true'] at hc1
      refine jt ?_ (by omega)
      rcases h0 with h | h
      · exact h
      · rw [hc1.2] at h; simp at h
    · rw [if_neg hc1]
      by_cases hc2 : (!e.optSize && decide (v0 ≤ 64) && !e.constEval) = true
      · rw [if_pos hc2]
        simp only [Bool.and_eq_true, decide_eq_true_eq, Bool.not_eq_true'] at hc2
        refine jt ?_ (by omega)
        rcases h0 with h | h
        · exact h
        · rw [hc2.2] at h; simp at h
      · rw [if_neg hc2]
        have hw : stdBitCeil v0 / 2 = 2 ^ (K + 1) := by
          rw [stdBitCeil_unique h1 h2, Nat.pow_succ]; omega
        simp only [hw]
        have hw1 : 2 ^ (K + 1) > 1 := by rw [Nat.pow_succ]; omega
        simp only [hw1, if_true]
        have hlt : l < 2 ^ (K + 2) := Nat.lt_of_lt_of_le hl h2
        have hbits : bitsDesc l = (if l.testBit (K + 1) then [2 ^ (K + 1)] else []) ++ descBits l (K + 1) := by
          rw [← bitsDesc_eq l (K + 2) hlt]; rfl
        by_cases hb : l.testBit (K + 1) = true
        · have hge : 2 ^ (K + 1) ≤ l := Nat.ge_two_pow_of_testBit hb
          rw [if_pos ((and_two_pow_ne_zero _ _).2 hb)]
          have hsub : l - 2 ^ (K + 1) < 2 ^ (K + 1) := by rw [Nat.pow_succ] at hlt; omega
          have hrest : descBits l (K + 1) = bitsDesc (l - 2 ^ (K + 1)) := by
            rw [← bitsDesc_eq _ (K + 1) hsub]
            have : ∀ j, j ≤ K + 1 → descBits l j = descBits (l - 2 ^ (K + 1)) j := by
              intro j hj
              induction j with
              | zero => rfl
              | succ j ihj =>
                have ht : l.testBit j = (l - 2 ^ (K + 1)).testBit j := by
                  conv => lhs; rw [show l = 2 ^ (K + 1) + (l - 2 ^ (K + 1)) by omega]
                  rw [Nat.testBit_two_pow_add_gt (by omega)]
                simp only [descBits, ht]
                rw [ihj (by omega)]
            exact this _ (Nat.le_refl _)
          simp only [hb, if_true, hrest] at hbits
          rw [hbits] at hal ⊢
          have d1 := does_single e wb f (2 ^ (K + 1)) aligned N (N - l) (fun h => (hal h).1) (by omega)
          have hpos : N - l + 2 ^ (K + 1) = N - (l - 2 ^ (K + 1)) := by omega
          have d2 : Does f wb N (N - l + elems (singles [2 ^ (K + 1)]))
              (singles (bitsDesc (l - 2 ^ (K + 1))))
              (fun st => if l - 2 ^ (K + 1) ≠ 0 then
                epilogue e wb f (2 ^ (K + 1)) (l - 2 ^ (K + 1)) (N : Int) aligned st else .ok st) := by
            have he : elems (singles [2 ^ (K + 1)]) = 2 ^ (K + 1) := by simp
            rw [he, hpos]
            by_cases hz : l - 2 ^ (K + 1) = 0
            · intro s' o' r' _ _
              simp [hz, run]
            · simp only [ne_eq, hz, not_false_eq_true, if_true]
              refine ih (2 ^ (K + 1)) (l - 2 ^ (K + 1)) (by rw [Nat.pow_succ]; omega) (Nat.le_refl _) hsub
                (Or.inl hz) (by omega) (fun h => ?_)
              have := (hal h).2
              rwa [hpos] at this
          have d3 := Does.comp d1 d2 (by simp; omega) s outs rest ho hr
          rw [← singles_append] at d3
          rw [← d3]
          simp only [Outcome.bind_ok, hcast]
        · rw [if_neg (fun h => hb ((and_two_pow_ne_zero _ _).1 h))]
          simp only [Outcome.bind_ok]
          have hlt' : l < 2 ^ (K + 1) := by
            apply Nat.lt_of_not_le
            intro hge
            apply hb
            rw [Nat.testBit_eq_decide_div_mod_eq]
            have : l / 2 ^ (K + 1) = 1 := by
              rw [Nat.pow_succ] at hlt
              apply Nat.div_eq_of_lt_le <;> omega
            simp [this]
          by_cases hz : l = 0
          · subst hz
            simp [run]
          · rw [if_pos hz]
            refine ih (2 ^ (K + 1)) l (by rw [Nat.pow_succ]; omega) (Nat.le_refl _) hlt' (Or.inl hz) hlN hal
              s outs rest ho hr

/-- A counted loop performs `q` times the same invocation. -/
theorem whileLoop_does (f : Callable σ α) (wb : Bool) (n : Nat) (c : Call) (cond : Int → Bool)
    (body : Int → St σ α → Outcome (St σ α)) (fuel p q : Nat)
    (hbody : ∀ i, i < q → Does f wb n (p + i * c.elems) [c] (body ((p + i * c.elems : Nat) : Int)))
    (hcond : ∀ i, i < q → cond ((p + i * c.elems : Nat) : Int) = true)
    (hend : cond ((p + q * c.elems : Nat) : Int) = false) (hn : p + q * c.elems ≤ n) (hf : q < fuel)
    (s : σ) (outs rest : List α) (ho : outs.length = p) (hr : p + rest.length = n) :
    whileLoop cond c.elems body fuel (p : Int) (s, outs ++ rest) =
      .ok (((p + q * c.elems : Nat) : Int), ((run f wb (List.replicate q c) s rest).1,
        outs ++ (run f wb (List.replicate q c) s rest).2)) := by
  induction q generalizing p s outs rest fuel with
  | zero =>
    cases fuel with
    | zero => omega
    | succ fuel =>
      simp only [Nat.zero_mul, Nat.add_zero] at hend
      simp [whileLoop, hend, run]
  | succ q ih =>
    cases fuel with
    | zero => omega
    | succ fuel =>
      have hc := hcond 0 (by omega)
      have hb := hbody 0 (by omega)
      simp only [Nat.zero_mul, Nat.add_zero] at hc hb
      rw [Nat.succ_mul] at hn hend
      simp only [whileLoop, hc, if_true]
      have key : ∀ i, p + c.elems + i * c.elems = p + (i + 1) * c.elems := by
        intro i; rw [Nat.succ_mul]; omega
      have hrep : List.replicate (q + 1) c = [c] ++ List.replicate q c := by
        rw [List.replicate_succ]; rfl
      -- unfold once, keep the position
      rw [hb s outs rest ho hr]
      simp only [Outcome.bind_ok]
      have hl : elems [c] ≤ rest.length := by simp; omega
      have h1 : run f wb [c] s rest = ((run f wb [c] s (rest.take (elems [c]))).1,
          (run f wb [c] s (rest.take (elems [c]))).2 ++ rest.drop (elems [c])) := by
        have := run_append f wb [c] [] s rest hl
        simpa [run] using this
      have h2 := run_append f wb [c] (List.replicate q c) s rest hl
      have hlen : (run f wb [c] s (rest.take (elems [c]))).2.length = elems [c] := by
        rw [run_length _ _ _ _ _ (by rw [List.length_take]; omega), List.length_take]; omega
      rw [h1, hrep, h2]
      simp only
      rw [← List.append_assoc]
      have := ih fuel (p + c.elems) (fun i hi => by rw [key]; exact hbody (i + 1) (by omega))
          (fun i hi => by rw [key]; exact hcond (i + 1) (by omega))
          (by rw [key, Nat.succ_mul]; exact hend) (by omega) (by omega)
          (run f wb [c] s (rest.take (elems [c]))).1 (outs ++ (run f wb [c] s (rest.take (elems [c]))).2)
          (rest.drop (elems [c])) (by rw [List.length_append, ho, hlen]; simp)
          (by rw [List.length_drop]; simp; simp at hl; omega)
      rw [Int.natCast_add] at this
      rw [this, key]
      simp

end Vir
