import Verif.Model.TransformGen
import Verif.Spec.Trace
import Verif.Lemmas.TransformMain

/-!
# `transform` processes a known sequence of groups
-/

namespace Vir
open Spec ForEach

variable {S α : Type}

@[simp] theorem span_nil : span [] = 0 := rfl
@[simp] theorem span_cons (g : Group) (gs : List Group) : span (g :: gs) = g.elems + span gs := by simp [span]
@[simp] theorem span_append (a b : List Group) : span (a ++ b) = span a + span b := by simp [span]
@[simp] theorem span_replicate (q : Nat) (g : Group) : span (List.replicate q g) = q * g.elems := by
  simp [span]

theorem runGroups_append (inv : Group → Nat → S → Outcome S) (p : Nat) (a b : List Group) (st : S) :
    runGroups inv p (a ++ b) st = runGroups inv p a st >>= runGroups inv (p + span a) b := by
  induction a generalizing p st with
  | nil => simp [runGroups]
  | cons g a ih =>
    simp only [List.cons_append, runGroups, Outcome.bind_assoc, span_cons]
    congr 1; funext s
    rw [ih, Nat.add_assoc]

/-- Chunks of the given widths, one per group. -/
def chunked (aligned : Bool) (ws : List Nat) : List Group := ws.map (⟨·, aligned, 1⟩)

@[simp] theorem chunked_nil (aligned : Bool) : chunked aligned [] = [] := rfl
@[simp] theorem chunked_cons (aligned : Bool) (w : Nat) (ws : List Nat) :
    chunked aligned (w :: ws) = ⟨w, aligned, 1⟩ :: chunked aligned ws := rfl
@[simp] theorem span_chunked (aligned : Bool) (ws : List Nat) : span (chunked aligned ws) = ws.sum := by
  induction ws with
  | nil => rfl
  | cons w ws ih => simp [ih, Group.elems]

namespace Transform

/-- The groups processed for a range of `n` elements at run time. -/
def groupsOf (e : Env) (n : Nat) : List Group :=
  if n = 0 then [] else
  let p := proCount e n
  let m := n - p
  let q1 := unrolledIters e m
  chunked true (bitsAsc p) ++ (List.replicate q1 ⟨e.size, useAligned e, unroll e⟩ ++
    (List.replicate ((m - q1 * (e.size * unroll e)) / e.size) ⟨e.size, useAligned e, 1⟩ ++
      chunked (useAligned e) (bitsDesc (m % e.size))))

/-- The groups processed during constant evaluation. -/
def constGroupsOf (e : Env) (n : Nat) : List Group :=
  List.replicate (n / e.size) ⟨e.size, false, 1⟩ ++ List.replicate (n % e.size) ⟨1, false, 1⟩

/-- All iterators are at the same position. -/
def atPos (inv : TInv S) (g : Group) (p : Nat) : S → Outcome S := inv g.w g.aligned g.k (p : Int) (p : Int) (p : Int)

theorem prologueRecG_trace_aux (inv : TInv S) (K tp k m p : Nat) (hK : 1 < K) (h0 : tp ≠ 0) (ht : tp < 2 ^ K) (hk : k + m = K)
    (hm : 0 < m) (st : S) :
    prologueRecG inv (2 ^ K) tp k (p : Int) (p : Int) st = runGroups (atPos inv) p (chunked true (ascBits tp k m)) st := by
  induction m generalizing k p st with
  | zero => omega
  | succ m ih =>
    have hmax : (2 : Nat) ^ 1 < 2 ^ K := Nat.pow_lt_pow_right (by omega) hK
    have hlt : 2 ^ k < 2 ^ K := Nat.pow_lt_pow_right (by omega) (by omega)
    unfold prologueRecG
    rw [if_neg (by simp [hasSingleBit_two_pow, hlt]; omega), if_neg (by omega)]
    have hne2 : ¬ 2 ^ K = 2 := by omega
    have cont : ∀ (p : Nat) st,
        (if _h : 2 ^ k * 2 < 2 ^ K then prologueRecG inv (2 ^ K) tp (k + 1) (p : Int) (p : Int) st else Outcome.ok st) =
          runGroups (atPos inv) p (chunked true (ascBits tp (k + 1) m)) st := by
      intro p st
      by_cases hmz : m = 0
      · subst hmz
        have hkK : k + 1 = K := by omega
        rw [dif_neg (by rw [← Nat.pow_succ, show k.succ = K from hkK]; omega)]
        simp [ascBits, runGroups]
      · have h2 : 2 ^ (k + 1) < 2 ^ K := Nat.pow_lt_pow_right (by omega) (by omega)
        rw [dif_pos (by rw [Nat.pow_succ] at h2; exact h2)]
        exact ih (k + 1) p (by omega) (by omega) st
    simp only [ascBits]
    by_cases hb : tp.testBit k = true
    · have hne : (2 ^ k &&& tp) ≠ 0 := (two_pow_and_ne_zero k tp).2 hb
      rw [if_pos (Or.inr hne)]
      simp only [hb, if_true, List.cons_append, List.nil_append, chunked_cons, runGroups, atPos, hne2, if_false,
        Outcome.bind_ok]
      congr 1; funext s
      rw [← Int.natCast_add, cont]
      simp [Group.elems]
    · have hne : ¬ (2 ^ k &&& tp) ≠ 0 := fun h => hb ((two_pow_and_ne_zero k tp).1 h)
      rw [if_neg (by rintro (h | h); exact hne2 h; exact hne h)]
      simp only [hb, if_false, Bool.false_eq_true, List.nil_append, Outcome.bind_ok]
      exact cont p st

theorem prologueRecG_trace (inv : TInv S) (K tp : Nat) (hK : 0 < K) (h0 : tp ≠ 0) (ht : tp < 2 ^ K) (st : S) :
    prologueRecG inv (2 ^ K) tp 0 0 0 st = runGroups (atPos inv) 0 (chunked true (bitsAsc tp)) st := by
  by_cases hK1 : K = 1
  · subst hK1
    obtain rfl : tp = 1 := by simp at ht; omega
    have hb : bitsAsc 1 = [1] := by decide
    rw [hb]
    unfold prologueRecG
    rw [if_neg (by decide), if_neg (by decide), if_pos (Or.inl (by decide))]
    simp [runGroups, atPos]
  · have := prologueRecG_trace_aux inv K tp 0 K 0 (by omega) h0 ht (by omega) hK st
    rw [bitsAsc_eq _ _ ht] at this
    exact this

theorem epilogueG_trace (inv : TInv S) (n K v0 l : Nat) (aligned : Bool) (h1 : 2 ^ K < v0) (h2 : v0 ≤ 2 ^ (K + 1)) (hl : l < v0)
    (h0 : l ≠ 0) (hlN : l ≤ n) (st : S) :
    epilogueG inv v0 l (n : Int) ((n - l : Nat) : Int) ((n - l : Nat) : Int) aligned st =
      runGroups (atPos inv) (n - l) (chunked aligned (bitsDesc l)) st := by
  induction K generalizing v0 l st with
  | zero =>
    obtain rfl : v0 = 2 := by simp at h1 h2; omega
    obtain rfl : l = 1 := by omega
    unfold epilogueG
    have hb : bitsDesc 1 = [1] := by decide
    rw [hb, dif_neg (by omega), if_pos rfl]
    have : (n : Int) - 1 = ((n - 1 : Nat) : Int) := by omega
    simp only [chunked_cons, chunked_nil, runGroups, atPos, this]
    cases inv 1 aligned 1 _ _ _ st <;> rfl
  | succ K ih =>
    have hp := Nat.two_pow_pos K
    have hv : 2 < v0 := by rw [Nat.pow_succ] at h1; omega
    unfold epilogueG
    rw [dif_neg (by omega), if_neg (by omega)]
    have hcast : (n : Int) - (l : Int) = ((n - l : Nat) : Int) := by omega
    have hw : stdBitCeil v0 / 2 = 2 ^ (K + 1) := by
      rw [stdBitCeil_unique h1 h2, Nat.pow_succ]; omega
    simp only [hw, hcast]
    have hw1 : 2 ^ (K + 1) > 1 := by rw [Nat.pow_succ]; omega
    simp only [hw1, if_true]
    have hlt : l < 2 ^ (K + 2) := Nat.lt_of_lt_of_le hl h2
    have hbits : bitsDesc l = (if l.testBit (K + 1) then [2 ^ (K + 1)] else []) ++ descBits l (K + 1) := by
      rw [← bitsDesc_eq l (K + 2) hlt]; rfl
    by_cases hb : l.testBit (K + 1) = true
    · have hge : 2 ^ (K + 1) ≤ l := Nat.ge_two_pow_of_testBit hb
      rw [if_pos ((and_two_pow_ne_zero _ _).2 hb)]
      have hsub : l - 2 ^ (K + 1) < 2 ^ (K + 1) := by rw [Nat.pow_succ] at hlt; omega
      have hrest : descBits l (K + 1) = bitsDesc (l - 2 ^ (K + 1)) := descBits_sub_top hb hlt
      simp only [hb, if_true, hrest] at hbits
      rw [hbits]
      have hpos : n - l + 2 ^ (K + 1) = n - (l - 2 ^ (K + 1)) := by omega
      have hcast2 : ((n - l : Nat) : Int) + ((2 ^ (K + 1) : Nat) : Int) = ((n - (l - 2 ^ (K + 1)) : Nat) : Int) := by omega
      simp only [List.cons_append, List.nil_append, chunked_cons, runGroups, atPos, Outcome.bind_ok, hcast2]
      congr 1; funext s
      simp only [Group.elems, Nat.mul_one, hpos]
      by_cases hz : l - 2 ^ (K + 1) = 0
      · simp [hz, runGroups]
      · rw [if_pos hz]
        exact ih (2 ^ (K + 1)) (l - 2 ^ (K + 1)) (by rw [Nat.pow_succ]; omega) (Nat.le_refl _) hsub hz (by omega) s
    · rw [if_neg (fun h => hb ((and_two_pow_ne_zero _ _).1 h))]
      simp only [Outcome.bind_ok]
      have hlt' : l < 2 ^ (K + 1) := lt_of_testBit_false (by simpa using hb) hlt
      rw [if_pos h0]
      exact ih (2 ^ (K + 1)) l (by rw [Nat.pow_succ]; omega) (Nat.le_refl _) hlt' h0 hlN st

theorem whileLoop_stepG (inv : TInv S) (cond : Int → Bool) (aligned : Bool) (w k fuel p q : Nat) (st : S)
    (hcond : ∀ i, i < q → cond ((p + i * (w * k) : Nat) : Int) = true)
    (hend : cond ((p + q * (w * k) : Nat) : Int) = false) (hf : q < fuel) :
    whileLoop cond (w * k) (stepG inv aligned w k) fuel (p : Int) ((p : Int), (p : Int), st) =
      (runGroups (atPos inv) p (List.replicate q ⟨w, aligned, k⟩) st >>= fun s =>
        .ok (((p + q * (w * k) : Nat) : Int), ((p + q * (w * k) : Nat) : Int), ((p + q * (w * k) : Nat) : Int), s)) := by
  induction q generalizing p fuel st with
  | zero =>
    cases fuel with
    | zero => omega
    | succ fuel =>
      simp only [Nat.zero_mul, Nat.add_zero] at hend ⊢
      simp [whileLoop, hend, runGroups]
  | succ q ih =>
    cases fuel with
    | zero => omega
    | succ fuel =>
      have hc := hcond 0 (by omega)
      simp only [Nat.zero_mul, Nat.add_zero] at hc
      simp only [whileLoop, hc, if_true, stepG, List.replicate_succ, runGroups, atPos, Outcome.bind_assoc, Outcome.bind_ok]
      congr 1; funext s
      have key : ∀ i, p + w * k + i * (w * k) = p + (i + 1) * (w * k) := by
        intro i; rw [Nat.succ_mul]; omega
      have := ih fuel (p + w * k) s (fun i hi => by rw [key]; exact hcond (i + 1) (by omega)) (by rw [key]; exact hend) (by omega)
      rw [Int.natCast_add, key] at this
      exact this

/-- The prologue phase for any `do_prologue`, defined or not. -/
theorem runPrologue_bind {e : Env} (wf : e.WF) {n : Nat} (hf : e.Fits n) (hp : proCount e n ≤ n)
    (doPro : Nat → Nat → S → Outcome S) (st : S) (x : Outcome S)
    (h1 : proCount e n ≠ 0 → ∀ K, ProInfo e K → proCount e n < 2 ^ K → doPro (2 ^ K) (proCount e n) st = x)
    (h0 : proCount e n = 0 → x = .ok st) :
    runPrologue e n doPro 0 st = (x >>= fun st' => .ok (((proCount e n : Nat) : Int), n - proCount e n, st')) := by
  have hsz := wf.sz_pos
  have hn : n < 2 ^ 64 := by
    have : n * 1 ≤ n * e.sz := Nat.mul_le_mul_left n hsz
    unfold Env.Fits at hf; omega
  have hmul : (n * e.sz) % sizeT = n * e.sz := Nat.mod_eq_of_lt hf
  have hsub : ∀ t, t ≤ n → (n + sizeT - t) % sizeT = n - t := by
    intro t ht
    rw [show n + sizeT - t = (n - t) + sizeT by omega, Nat.add_mod_right, Nat.mod_eq_of_lt]
    unfold sizeT; omega
  have pro : prologuePossible e = true → misalignedBytes e ≠ 0 → proCount e n = toProcess e →
      doPro (maxMisalignment e) (toProcess e) st = x := by
    intro h2 h3 h4
    obtain ⟨K, hK⟩ := proInfo wf h2
    rw [hK.max, ← h4]
    have := hK.tp_pos h3
    exact h1 (by omega) K hK (by rw [h4]; exact hK.tp_lt h3)
  by_cases h : (useAligned e || maybeAnyway e) = true
  · have hpp : prologuePossible e = true := by
      simp only [useAligned, maybeAnyway, Bool.or_eq_true, Bool.and_eq_true] at h
      rcases h with h | h <;> exact h.2
    by_cases hm : misalignedBytes e = 0
    · have hz : proCount e n = 0 := by simp [proCount, hm]
      rw [hz, h0 hz]
      simp [runPrologue, h, hm]
    · by_cases hu : useAligned e = true
      · have hz : proCount e n = toProcess e := by simp [proCount, hm, hu]
        rw [hz] at hp ⊢
        simp only [runPrologue, if_true, hm, if_false, hu, pro hpp hm hz, hsub _ hp]
        simp
      · have hu : useAligned e = false := by simpa using hu
        have h : maybeAnyway e = true := by simpa [hu] using h
        by_cases hc : n * e.sz > 4000 ∨ (toProcess e &&& n) = toProcess e
        · have hz : proCount e n = toProcess e := by
            simp only [proCount, h, Bool.false_or, if_true, hm, if_false, hu, Bool.false_eq_true, hc]
          rw [hz] at hp ⊢
          simp only [runPrologue, h, Bool.false_or, if_true, hm, if_false, hu, Bool.false_eq_true, hmul, hc, pro hpp hm hz, hsub _ hp]
          simp
        · have hz : proCount e n = 0 := by
            simp only [proCount, h, Bool.false_or, if_true, hm, if_false, hu, Bool.false_eq_true, hc]
          rw [hz, h0 hz]
          simp only [runPrologue, h, Bool.false_or, if_true, hm, if_false, hu, Bool.false_eq_true, hmul, hc]
          simp
  · have hz : proCount e n = 0 := by simp only [proCount, h, if_false, Bool.false_eq_true]
    rw [hz, h0 hz]
    simp [runPrologue, h]

theorem groupsOf_span {e : Env} {n : Nat} (hp : n = 0 ∨ proCount e n ≤ n) : span (groupsOf e n) = n := by
  unfold groupsOf
  by_cases hn : n = 0
  · simp [hn]
  rw [if_neg hn]
  have hp : proCount e n ≤ n := by omega
  have := unrolledIters_le e (n - proCount e n)
  have h2 := Nat.div_add_mod (n - proCount e n - unrolledIters e (n - proCount e n) * (e.size * unroll e)) e.size
  have h3 : (n - proCount e n) % e.size = (n - proCount e n - unrolledIters e (n - proCount e n) * (e.size * unroll e)) % e.size := by
    conv => lhs; rw [← Nat.sub_add_cancel this]
    rw [show unrolledIters e (n - proCount e n) * (e.size * unroll e) = e.size * (unroll e * unrolledIters e (n - proCount e n)) by
      rw [Nat.mul_comm, Nat.mul_assoc], Nat.add_mul_mod_self_left]
  simp only [span_append, span_chunked, bitsAsc_sum, span_replicate, bitsDesc_sum, Group.elems, h3, Nat.mul_one]
  rw [Nat.mul_comm _ e.size]
  omega

/-- The groups partition the range also during constant evaluation. -/
theorem constGroupsOf_span (e : Env) (n : Nat) : span (constGroupsOf e n) = n := by
  have := Nat.div_add_mod n e.size
  simp [constGroupsOf, Group.elems, Nat.mul_comm (n / e.size)]
  omega

/-- **Main theorem**: whatever the processing of a group does, `transform` processes the groups `groupsOf` in order, each with all
iterators at the same position, and returns the end of the output range. -/
theorem transformG_trace {t : TEnv} (wf : t.e.WF)
    (hce : t.e.constEval = false) (hf : t.e.Fits t.n) (hp : t.n = 0 ∨ proCount t.e t.n ≤ t.n)
    (hst : t.e.strictPtr = true →
      t.n = 0 ∨ (t.e.size ≤ t.n ∧ (1 < t.e.pol.unrollBy → t.e.size * unroll t.e ≤ t.n)))
    (has : t.e.pol.assumeMatchingSize = true → t.e.size ∣ t.n) (inv : TInv S) (st : S) :
    transformG t inv st = (runGroups (atPos inv) 0 (groupsOf t.e t.n) st >>= fun s => .ok ((t.n : Int), s)) := by
  unfold transformG
  by_cases hn0 : t.n = 0
  · simp [hn0, groupsOf, runGroups]
  have hspan := groupsOf_span hp
  have hp : proCount t.e t.n ≤ t.n := by omega
  have hst : t.e.strictPtr = true →
      (t.e.size ≤ t.n ∧ (1 < t.e.pol.unrollBy → t.e.size * unroll t.e ≤ t.n)) := by
    intro h; rcases hst h with h | h
    · exact absurd h hn0
    · exact h
  have hassume : (t.e.pol.assumeMatchingSize && t.n % t.e.size != 0) = false := by
    cases ha : t.e.pol.assumeMatchingSize
    · rfl
    · simp [Nat.mod_eq_zero_of_dvd (has ha)]
  simp only [hn0, if_false, hassume, Bool.false_eq_true, hce]
  have hsize := wf.size_pos
  have hpas : t.e.pol.assumeMatchingSize = true → proCount t.e t.n = 0 := proCount_assume wf t.n
  rw [runPrologue_bind wf hf hp _ st (runGroups (atPos inv) 0 (chunked true (bitsAsc (proCount t.e t.n))) st)
    (fun h0 K hK ht => prologueRecG_trace inv K _ hK.K_pos h0 ht st) (by intro h; simp [h, runGroups])]
  unfold groupsOf at hspan ⊢
  simp only [hn0, if_false] at hspan ⊢
  rw [runGroups_append]
  simp only [Outcome.bind_assoc, Outcome.bind_ok, span_chunked, bitsAsc_sum, Nat.zero_add]
  congr 1; funext s1
  clear st
  generalize hP : proCount t.e t.n = p at hp hpas hspan ⊢
  -- unrolled loop
  generalize hQ1 : unrolledIters t.e (t.n - p) = q1 at hspan ⊢
  have hq1le : q1 * (t.e.size * unroll t.e) ≤ t.n - p := by
    rw [← hQ1]; exact unrolledIters_le _ _
  have ph2 : unrolledLoopG t inv (p : Int) ((p : Int), (p : Int), s1) =
      (runGroups (atPos inv) p (List.replicate q1 ⟨t.e.size, useAligned t.e, unroll t.e⟩) s1 >>= fun s =>
      .ok (((p + q1 * (t.e.size * unroll t.e) : Nat) : Int), ((p + q1 * (t.e.size * unroll t.e) : Nat) : Int),
        ((p + q1 * (t.e.size * unroll t.e) : Nat) : Int), s)) := by
    unfold unrolledLoopG
    by_cases hu : t.e.pol.unrollBy > 1
    · simp only [hu, if_true]
      have hU : 1 < unroll t.e := by unfold unroll; omega
      have hstep : 0 < t.e.size * unroll t.e := Nat.mul_pos hsize (by omega)
      have hsp : subPtr t.e (t.n : Int) (t.e.size * t.e.pol.unrollBy.toNat) =
          .ok ((t.n : Int) - (t.e.size * unroll t.e : Nat)) := by
        unfold subPtr
        rw [if_neg]
        · rfl
        · simp only [Bool.and_eq_true, decide_eq_true_eq, not_and]
          intro hs
          have := (hst hs).2 hu
          unfold unroll at this
          omega
      rw [hsp]
      simp only [Outcome.bind_ok]
      have hq2 : t.n - p < q1 * (t.e.size * unroll t.e) + t.e.size * unroll t.e := by
        simp only [unrolledIters, hu, if_true] at hQ1
        have := Nat.lt_mul_div_succ (t.n - p) hstep
        rw [hQ1, Nat.mul_succ, Nat.mul_comm _ q1] at this; exact this
      have hqn : q1 ≤ t.n := by
        have : q1 * 1 ≤ q1 * (t.e.size * unroll t.e) := Nat.mul_le_mul_left q1 hstep
        omega
      refine whileLoop_stepG inv _ (useAligned t.e) t.e.size (unroll t.e) (t.n + 1) p q1 s1 ?_ ?_ (by omega)
      · intro i hi
        have := Nat.mul_le_mul_right (t.e.size * unroll t.e) (show i + 1 ≤ q1 from hi)
        rw [Nat.succ_mul] at this
        refine decide_eq_true ?_
        omega
      · refine decide_eq_false ?_
        omega
    · have : q1 = 0 := by rw [← hQ1]; simp [unrolledIters, hu]
      subst this
      simp [hu, runGroups]
  rw [ph2, runGroups_append]
  simp only [Outcome.bind_assoc, Outcome.bind_ok, span_replicate, Group.elems]
  congr 1; funext s2
  clear s1 ph2
  generalize hstp : q1 * (t.e.size * unroll t.e) = d1 at *
  have hstepd : t.e.size ∣ d1 := by
    rw [← hstp, show q1 * (t.e.size * unroll t.e) = t.e.size * (unroll t.e * q1) by rw [Nat.mul_comm, Nat.mul_assoc]]
    exact Nat.dvd_mul_right _ _
  -- main loop
  have hsl : subPtr t.e (t.n : Int) t.e.size = .ok ((t.n : Int) - (t.e.size : Nat)) := by
    unfold subPtr
    rw [if_neg]
    simp only [Bool.and_eq_true, decide_eq_true_eq, not_and]
    intro hs
    have := (hst hs).1
    omega
  rw [hsl]
  simp only [Outcome.bind_ok]
  generalize hq2 : (t.n - p - d1) / t.e.size = q2 at hspan ⊢
  have hq2le : q2 * t.e.size ≤ t.n - p - d1 := by rw [← hq2]; exact Nat.div_mul_le_self _ _
  have hq2lt : t.n - p - d1 < q2 * t.e.size + t.e.size := by
    have := Nat.lt_mul_div_succ (t.n - p - d1) hsize
    rw [hq2, Nat.mul_succ, Nat.mul_comm t.e.size] at this; exact this
  have hqn : q2 ≤ t.n := by
    have : q2 * 1 ≤ q2 * t.e.size := Nat.mul_le_mul_left q2 hsize
    omega
  have hmod : (t.n - p) % t.e.size = t.n - p - d1 - q2 * t.e.size := by
    obtain ⟨c, hc⟩ := hstepd
    have : t.n - p = (t.n - p - d1 - q2 * t.e.size) + t.e.size * (c + q2) := by
      rw [Nat.mul_add, Nat.mul_comm t.e.size q2, ← hc]; omega
    rw [this, Nat.add_mul_mod_self_left, Nat.mod_eq_of_lt (by omega)]
    rw [← this]
  have ph3 := whileLoop_stepG inv (fun first1 => if t.e.pol.assumeMatchingSize = true then decide (first1 ≠ (t.n : Int))
        else decide (first1 ≤ (t.n : Int) - (t.e.size : Nat))) (useAligned t.e) t.e.size 1 (t.n + 1) (p + d1) q2 s2
    (by
      intro i hi
      have := Nat.mul_le_mul_right t.e.size (show i + 1 ≤ q2 from hi)
      rw [Nat.succ_mul] at this
      rw [Nat.mul_one]
      by_cases has' : t.e.pol.assumeMatchingSize = true
      · rw [if_pos has']; refine decide_eq_true ?_; omega
      · rw [if_neg has']; refine decide_eq_true ?_; omega)
    (by
      rw [Nat.mul_one]
      by_cases has' : t.e.pol.assumeMatchingSize = true
      · rw [if_pos has']
        refine decide_eq_false ?_
        have h1 := hpas has'
        have h2 : (t.n - p) % t.e.size = 0 := by rw [h1]; exact Nat.mod_eq_zero_of_dvd (has has')
        omega
      · rw [if_neg has']; refine decide_eq_false ?_; omega)
    (by omega)
  rw [Nat.mul_one] at ph3
  rw [ph3, runGroups_append]
  simp only [Outcome.bind_assoc, Outcome.bind_ok, span_replicate, Group.elems, Nat.mul_one]
  congr 1; funext s3
  clear s2 ph3
  generalize hl : (t.n - p) % t.e.size = l at hmod
  by_cases hl0 : l = 0
  · have hend : p + d1 + q2 * t.e.size = t.n := by omega
    simp [hl0, hend, runGroups]
  · have hs1 : 1 < t.e.size := by
      rcases Nat.lt_or_ge 1 t.e.size with h | h
      · exact h
      · exfalso; apply hl0; rw [← hl, show t.e.size = 1 by omega, Nat.mod_one]
    have has' : t.e.pol.assumeMatchingSize = false := by
      cases h : t.e.pol.assumeMatchingSize
      · rfl
      · exfalso; apply hl0; rw [← hl, hpas h]; exact Nat.mod_eq_zero_of_dvd (has h)
    have hll : l < t.e.size := by rw [← hl]; exact Nat.mod_lt _ hsize
    simp only [hs1, decide_true, has', Bool.not_false, Bool.and_self, if_true, ne_eq, hl0, not_false_eq_true]
    have hpos : p + d1 + q2 * t.e.size = t.n - l := by omega
    obtain ⟨K, hK, hK1, hK2⟩ := stdBitCeil_spec hs1
    rw [hpos, epilogueG_trace inv t.n K t.e.size l (useAligned t.e) hK1 hK2 hll hl0 (by omega) s3]
    congr 1; funext s4
    rw [show ((t.n - l : Nat) : Int) + (l : Int) = (t.n : Int) by omega]

/-- The same during constant evaluation. -/
theorem transformG_const {t : TEnv} (hs : 0 < t.e.size) (hce : t.e.constEval = true)
    (hpt : t.e.strictPtr = true → t.n % t.e.size + 1 = t.e.size)
    (has : t.e.pol.assumeMatchingSize = true → t.e.size ∣ t.n) (inv : TInv S) (st : S) :
    transformG t inv st = (runGroups (atPos inv) 0 (constGroupsOf t.e t.n) st >>= fun s => .ok ((t.n : Int), s)) := by
  unfold transformG
  by_cases hn0 : t.n = 0
  · simp [hn0, constGroupsOf, runGroups]
  have hassume : (t.e.pol.assumeMatchingSize && t.n % t.e.size != 0) = false := by
    cases ha : t.e.pol.assumeMatchingSize
    · rfl
    · simp [Nat.mod_eq_zero_of_dvd (has ha)]
  simp only [hn0, if_false, hassume, Bool.false_eq_true, hce, if_true]
  rw [constLoop_eq hs hpt]
  have hdm := Nat.div_add_mod t.n t.e.size
  rw [Nat.mul_comm] at hdm
  have hlt := Nat.mod_lt t.n hs
  unfold constGroupsOf
  generalize hq : t.n / t.e.size = q at *
  generalize hl : t.n % t.e.size = l at *
  have hqn : q ≤ t.n := by
    have : q * 1 ≤ q * t.e.size := Nat.mul_le_mul_left q hs
    omega
  have ph1 := whileLoop_stepG inv (fun first => decide (first + ((t.e.size : Int) - 1) < (t.n : Int))) false t.e.size 1 (t.n + 1) 0 q st
    (by
      intro i hi
      have := Nat.mul_le_mul_right t.e.size (show i + 1 ≤ q from hi)
      rw [Nat.succ_mul] at this
      rw [Nat.mul_one]
      refine decide_eq_true ?_; omega)
    (by rw [Nat.mul_one]; refine decide_eq_false ?_; omega) (by omega)
  rw [Nat.mul_one] at ph1
  rw [show ((0 : Int), (0 : Int), st) = (((0 : Nat) : Int), ((0 : Nat) : Int), st) from rfl, show (0 : Int) = ((0 : Nat) : Int) from rfl, ph1,
    runGroups_append]
  simp only [Outcome.bind_assoc, Outcome.bind_ok, span_replicate, Group.elems, Nat.mul_one, Nat.zero_add]
  congr 1; funext s1
  have ph2 := whileLoop_stepG inv (fun first1 => decide (first1 < (t.n : Int))) false 1 1 (t.n + 1) (q * t.e.size) l s1
    (by intro i hi; refine decide_eq_true ?_; omega)
    (by refine decide_eq_false ?_; omega) (by omega)
  rw [Nat.mul_one] at ph2
  rw [ph2]
  simp only [Outcome.bind_assoc, Outcome.bind_ok, Nat.mul_one, hdm]

end Transform
end Vir
