import Verif.Props.Transform
import Verif.Props.TransformReduce

/-!
# C56: iterators formed by `transform` and `transform_reduce`

With `Env.strictPtr` the model treats forming an iterator outside `[first, last]` as undefined, as ISO C++ does if the range is a whole array.
-/

namespace Vir
open Spec ForEach Transform TransformReduce

variable {α β τ : Type}

private theorem subPtr_bad {e : Env} (hpt : e.strictPtr = true) {n k : Nat} (hk : n < k) : subPtr e (n : Int) k = .ub .badPointer := by
  unfold subPtr
  rw [if_pos]
  simp [hpt]; omega

private theorem assume_ok {e : Env} {n : Nat} (ha : e.pol.assumeMatchingSize = true → e.size ∣ n) :
    (e.pol.assumeMatchingSize && n % e.size != 0) = false := by
  cases h : e.pol.assumeMatchingSize
  · rfl
  · simp [Nat.mod_eq_zero_of_dvd (ha h)]

/-- **C56 (transform).** At run time `transform` on a non-empty range forms no iterator outside of it exactly if the range is at least as
long as one (unrolled) iteration. -/
theorem transform_strict_defined_iff {t : TEnv} {mem : List α} (ok : RangesOk t mem) (wf : t.e.WF)
    (hce : t.e.constEval = false) (hpt : t.e.strictPtr = true) (hf : t.e.Fits t.n) (hr : ReachesAlignment t.e t.n) (hn : t.n ≠ 0)
    (ha : t.e.pol.assumeMatchingSize = true → t.e.size ∣ t.n) (op : VecOp α α) :
    (transform t op mem).Defined ↔
      (t.e.size ≤ t.n ∧ (1 < t.e.pol.unrollBy → t.e.size * t.e.pol.unrollBy.toNat ≤ t.n)) := by
  have hp := (reaches_iff wf).1 hr
  constructor
  · intro hd
    unfold transform at hd
    simp only [hn, if_false, assume_ok ha, Bool.false_eq_true, hce] at hd
    have ph1 : runPrologue t.e t.n (fun max tp mem => Transform.prologueRec t op max tp 0 0 0 mem) 0 mem =
        .ok (((proCount t.e t.n : Nat) : Int), t.n - proCount t.e t.n,
          writeAt mem t.out (outs op t.ins mem 0 (bitsAsc (proCount t.e t.n)))) := by
      refine runPrologue_gen wf hf (by omega) _ mem _ ?_ ?_
      · intro h0 K hK ht ha
        have hs := alignedSeq_asc wf ha 0 K (by simpa using hK.le_size) (by simpa using ht)
        rw [bitsAsc_eq _ _ ht] at hs
        have := does_prologue ok op K _ hK.K_pos h0 ht (by simpa [Nat.mod_one] using hs) (by omega) [] rfl
        simpa using this
      · intro h0; rw [h0]; simp [outs]
    rw [ph1] at hd
    simp only [Outcome.bind_ok] at hd
    have h2 : 1 < t.e.pol.unrollBy → t.e.size * t.e.pol.unrollBy.toNat ≤ t.n := by
      intro hu
      apply Nat.le_of_not_lt
      intro hlt
      unfold Transform.unrolledLoop at hd
      rw [if_pos hu] at hd
      simp only [subPtr_bad hpt hlt, Outcome.bind_ub] at hd
      exact hd
    refine ⟨?_, h2⟩
    apply Nat.le_of_not_lt
    intro hlt
    have hu : ¬ t.e.pol.unrollBy > 1 := by
      intro hu
      have := h2 hu
      have : t.e.size * 1 ≤ t.e.size * t.e.pol.unrollBy.toNat := Nat.mul_le_mul_left _ (by omega)
      omega
    unfold Transform.unrolledLoop at hd
    rw [if_neg hu] at hd
    simp only [Outcome.bind_ok, subPtr_bad hpt hlt, Outcome.bind_ub] at hd
    exact hd
  · intro h
    rw [transform_eq ok wf hce hf hp (fun _ => Or.inr h) ha op]
    trivial

/-- **C56 (transform_reduce).** At run time `transform_reduce` on a non-empty range forms no iterator outside of it exactly if the range
is at least as long as one vector and, if at least one vector is left after the prologue and the loop is unrolled, at least one whole
unrolled iteration is left. -/
theorem transformReduce_strict_defined_iff {R : REnv α β τ} {mem : List α} (ok : InputsOk R mem) (wf : R.e.WF)
    (hce : R.e.constEval = false) (hpt : R.e.strictPtr = true) (hf : R.e.Fits R.n)
    (hr : ReachesAlignment R.e R.n) (he : ¬ EndsAtFirstAligned R.e R.n) (hn : R.n ≠ 0)
    (ha : R.e.pol.assumeMatchingSize = true → R.e.size ∣ R.n)
    (hT : HReduce R.rT R.hredT) (hB : HReduce R.rB R.hredB) (init : τ) :
    (transformReduce R mem init).Defined ↔
      (R.e.size ≤ R.n ∧ (proCount R.e R.n + R.e.size ≤ R.n → 1 < R.e.pol.unrollBy →
        proCount R.e R.n + R.e.size * R.e.pol.unrollBy.toNat ≤ R.n)) := by
  have hp0 := (reaches_iff wf).1 hr
  have hp : proCount R.e R.n < R.n := by
    have : ¬ (R.n ≠ 0 ∧ proCount R.e R.n = R.n) := fun h => he ((ends_iff wf).2 h)
    omega
  constructor
  · intro hd
    unfold transformReduce at hd
    simp only [hn, if_false, assume_ok ha, Bool.false_eq_true, hce] at hd
    obtain ⟨acc1, ph1, _⟩ := runPrologue_ex wf hf (Nat.le_of_lt hp)
      (fun max tp acc1 => TransformReduce.prologueRec R mem max tp 0 acc1) init (fun _ => True)
      (by
        intro h0 K hK ht ha
        have hs := alignedSeq_asc wf ha 0 K (by simpa using hK.le_size) (by simpa using ht)
        have hb1 := bitsAsc_eq (proCount R.e R.n) (K + 1) (by rw [Nat.pow_succ]; omega)
        rw [bitsAsc_eq _ _ ht] at hs
        have := prologue_gsum ok hB K _ 0 (K + 1) ht (by omega) (by omega)
          (by simpa [Nat.mod_one, hb1] using hs) (Nat.le_of_lt hp) [init] init (GSum.single init)
        obtain ⟨v, ys, h1, h2, h3⟩ := this
        exact ⟨v, h1, trivial⟩)
      (fun _ => trivial)
    rw [ph1] at hd
    simp only [Outcome.bind_ok] at hd
    have h1 : R.e.size ≤ R.n := by
      apply Nat.le_of_not_lt
      intro hlt
      simp only [subPtr_bad hpt hlt, Outcome.bind_ub] at hd
      exact hd
    refine ⟨h1, fun hfit hu => ?_⟩
    apply Nat.le_of_not_lt
    intro hlt
    have hsl : subPtr R.e (R.n : Int) R.e.size = .ok ((R.n : Int) - (R.e.size : Nat)) := by
      unfold subPtr
      rw [if_neg]
      simp only [Bool.and_eq_true, decide_eq_true_eq, not_and]
      omega
    rw [hsl] at hd
    simp only [Outcome.bind_ok] at hd
    have hcond : (R.e.pol.assumeMatchingSize || decide (((proCount R.e R.n : Nat) : Int) ≤ (R.n : Int) - (R.e.size : Nat))) = true := by
      rw [Bool.or_eq_true]; right; refine decide_eq_true ?_; omega
    rw [if_pos hcond] at hd
    have hinit : ∃ r, initAcc R mem (proCount R.e R.n : Nat) (proCount R.e R.n : Nat) = .ub r := by
      unfold initAcc
      rw [if_pos hu]
      dsimp only
      by_cases hs : R.n < R.e.size * R.e.pol.unrollBy.toNat
      · rw [subPtr_bad hpt hs]; exact ⟨_, rfl⟩
      · have : subPtr R.e (R.n : Int) (R.e.size * R.e.pol.unrollBy.toNat) = .ok ((R.n : Int) - (R.e.size * R.e.pol.unrollBy.toNat : Nat)) := by
          unfold subPtr
          rw [if_neg]
          simp only [Bool.and_eq_true, decide_eq_true_eq, not_and]
          omega
        rw [this]
        have h3 : addPtr R.e R.n (proCount R.e R.n : Nat) (R.e.size * R.e.pol.unrollBy.toNat) = .ub .badPointer := by
          unfold addPtr
          rw [if_pos]
          simp only [hpt, Bool.true_and, decide_eq_true_eq]; omega
        simp only [Outcome.bind_ok, h3, Outcome.bind_ub]
        exact ⟨_, rfl⟩
    obtain ⟨r, hr⟩ := hinit
    rw [hr] at hd
    exact hd
  · intro h
    obtain ⟨v, ys, h1, _⟩ := transformReduce_gsum ok wf hce hf (Or.inr hp) (fun _ => Or.inr h) ha hT (fun _ => hB) init
    rw [h1]; trivial

/-! ## Constant evaluation -/

private theorem constLoop_undefined {S T : Type} {e : Env} {n : Nat} (hs : 0 < e.size) (hpt : e.strictPtr = true) (hn : n % e.size + 1 ≠ e.size)
    (body : Int → S → Outcome S) (hb : ∀ p st, body p st ≠ .trap) (fuel : Nat) (st : S) (k : Int × S → Outcome T) :
    ¬ (constLoop e n body fuel 0 st >>= k).Defined := by
  obtain ⟨u, hu⟩ := constLoop_bad hs hpt hn body hb fuel 0 (Nat.zero_le _) st
  rw [Nat.zero_mul] at hu
  rw [show constLoop e n body fuel 0 st = .ub u from hu]
  exact fun h => h

private theorem bind_noTrap {A B : Type} {x : Outcome A} {k : A → Outcome B} (hx : x ≠ .trap) (hk : ∀ a, k a ≠ .trap) : (x >>= k) ≠ .trap := by
  cases x with
  | ok a => exact hk a
  | ub u => simp
  | trap => exact absurd rfl hx

private theorem invoke_noTrap {σ : Type} (e : Env) (wb : Bool) (f : Callable σ α) (w : Nat) (aligned : Bool) (k : Nat) (pos : Int) (st : St σ α) :
    ForEach.loadAndInvoke e wb f w aligned k pos st ≠ .trap := by
  have hl : ∀ k pos, loadAll e st.2 aligned w k pos ≠ .trap := by
    intro k
    induction k with
    | zero => intro pos; simp [loadAll]
    | succ k ih =>
      intro pos
      unfold loadAll
      refine bind_noTrap ?_ fun _ => bind_noTrap (ih _) fun _ => by simp
      unfold load
      split
      · simp
      · split <;> simp
  have hst : ∀ (vs : List (List α)) pos mem, storeAll e aligned w vs pos mem ≠ .trap := by
    intro vs
    induction vs with
    | nil => intros; simp [storeAll]
    | cons v vs ih =>
      intro pos mem
      unfold storeAll
      refine bind_noTrap ?_ fun _ => ih _ _
      unfold store
      split
      · simp
      · split <;> simp
  unfold ForEach.loadAndInvoke
  refine bind_noTrap (hl _ _) fun c => ?_
  split
  · exact bind_noTrap (hst _ _ _) fun _ => by simp
  · simp

private theorem chunkStep_noTrap (t : TEnv) (op : VecOp α α) (aligned : Bool) (w : Nat) (p : Int) (st : LoopSt α) :
    chunkStep t op aligned w p st ≠ .trap := by
  have h1 : ∀ b p, loadIn t st.2.2 w b p ≠ .trap := by
    intro b p
    unfold loadIn
    split <;> simp
  have h2 : ∀ p bs, loadIns t st.2.2 w p bs ≠ .trap := by
    intro p bs
    induction bs with
    | nil => simp [loadIns]
    | cons b bs ih =>
      unfold loadIns
      exact bind_noTrap (h1 _ _) fun _ => bind_noTrap ih fun _ => by simp
  unfold chunkStep chunk
  refine bind_noTrap (bind_noTrap ?_ fun v => ?_) fun _ => by simp
  · unfold Transform.loadAndInvoke
    split
    · simp
    · exact bind_noTrap (h1 _ _) fun _ => bind_noTrap (h2 _ _) fun _ => by simp
  · unfold storeOut
    split
    · simp
    · split <;> simp

/-- **C47 (constant evaluation).** During constant evaluation, where a pointer outside the array is an error, `for_each` on a non-empty range
is possible exactly if the length is one less than a multiple of the width (in particular if the width is 1): the loop tests
`first + (size - 1) < last` and forms that pointer once more after the last full vector. -/
theorem constForEach_strict_defined_iff {σ : Type} {e : Env} (hs : 0 < e.size) (hce : e.constEval = true) (hpt : e.strictPtr = true) (wb : Bool)
    (f : Callable σ α) (s : σ) (xs : List α) (hn : xs.length ≠ 0) (ha : e.pol.assumeMatchingSize = true → e.size ∣ xs.length) :
    (forEach e wb f s xs).Defined ↔ e.size ∣ xs.length + 1 := by
  have hd : e.size ∣ xs.length + 1 ↔ xs.length % e.size + 1 = e.size := by
    have hdm := Nat.div_add_mod xs.length e.size
    have hlt := Nat.mod_lt xs.length hs
    constructor
    · rintro ⟨q, hq⟩
      have : e.size ∣ xs.length % e.size + 1 :=
        (Nat.dvd_add_right (Nat.dvd_mul_right e.size (xs.length / e.size))).1 ⟨q, by omega⟩
      have := Nat.le_of_dvd (by omega) this
      omega
    · intro h
      exact ⟨xs.length / e.size + 1, by rw [Nat.mul_succ]; omega⟩
  rw [hd]
  constructor
  · intro h
    by_cases hx : xs.length % e.size + 1 = e.size
    · exact hx
    · unfold forEach at h
      simp only [hn, if_false, assume_ok ha, Bool.false_eq_true, hce, if_true] at h
      exact absurd h (constLoop_undefined hs hpt hx _ (fun _ _ => invoke_noTrap _ _ _ _ _ _ _ _) _ _ _)
  · intro h
    rw [constForEach_eq_run hs hce (fun _ => h) (.inr (by
      by_cases h2 : e.size = 2
      · rw [h2] at h; right; omega
      · exact .inl h2)) ha wb f s xs rfl]
    trivial

/-- **C56 (transform, constant evaluation).** The same for `transform`. -/
theorem constTransform_strict_defined_iff {t : TEnv} {mem : List α} (ok : RangesOk t mem) (hs : 0 < t.e.size)
    (hce : t.e.constEval = true) (hpt : t.e.strictPtr = true) (hn : t.n ≠ 0)
    (ha : t.e.pol.assumeMatchingSize = true → t.e.size ∣ t.n) (op : VecOp α α) :
    (transform t op mem).Defined ↔ t.e.size ∣ t.n + 1 := by
  have hd : t.e.size ∣ t.n + 1 ↔ t.n % t.e.size + 1 = t.e.size := by
    have hdm := Nat.div_add_mod t.n t.e.size
    have hlt := Nat.mod_lt t.n hs
    constructor
    · rintro ⟨q, hq⟩
      have : t.e.size ∣ t.n % t.e.size + 1 :=
        (Nat.dvd_add_right (Nat.dvd_mul_right t.e.size (t.n / t.e.size))).1 ⟨q, by omega⟩
      have := Nat.le_of_dvd (by omega) this
      omega
    · intro h
      exact ⟨t.n / t.e.size + 1, by rw [Nat.mul_succ]; omega⟩
  rw [hd]
  constructor
  · intro h
    by_cases hx : t.n % t.e.size + 1 = t.e.size
    · exact hx
    · unfold transform at h
      simp only [hn, if_false, assume_ok ha, Bool.false_eq_true, hce, if_true] at h
      exact absurd h (constLoop_undefined hs hpt hx _ (fun _ _ => chunkStep_noTrap _ _ _ _ _ _) _ _ _)
  · intro h
    rw [transform_const_eq ok hs hce (fun _ => h) ha op]
    trivial

/-! ## Both sides occur -/

def strictT (n : Nat) : TEnv := ⟨{ exampleEnv with pol := ⟨[.unrollBy 2]⟩, strictPtr := true }, [0], 0, n⟩

example : RangesOk (strictT 8) (List.range 8) ∧ RangesOk (strictT 7) (List.range 8) := ⟨⟨by decide, by decide, by decide, by decide⟩, ⟨by decide, by decide, by decide, by decide⟩⟩
example : (strictT 8).e.WF := libstdcxx_wf _ (by decide) ⟨2, rfl⟩ rfl (by decide) ⟨[.unrollBy 2], by decide⟩ (by decide)

/-- **C56 (witness).** Seven ints, width 4, unrolled twice: `last1 - 8` is formed. -/
theorem transform_forms_bad_pointer : transform (strictT 7) sumOp (List.range 8) = .ub .badPointer := by decide +kernel

example : transform (strictT 8) sumOp (List.range 8) = .ok (8, List.range 8) := by decide +kernel

/-- The arguments of `reduce` with `std::plus` on 12 bytes-aligned ints, width 4, unrolled twice. -/
def strictR (n : Nat) (pol : List PolicyOption) : REnv Nat Nat Nat :=
  ⟨{ exampleEnv with pol := ⟨pol⟩, strictPtr := true }, [0], n, identityOp, (· + ·), (· + ·), id, List.sum, List.sum⟩

/-- **C56 (witness).** Ten ints at an address 4 bytes past an aligned one with `prefer_aligned` and `unroll_by(2)`: one vector is left
after the prologue of three elements, but `first1 + 8` lies past the end, although the range has more than 8 elements. -/
theorem transformReduce_forms_bad_pointer :
    transformReduce (strictR 10 [.preferAligned, .unrollBy 2]) (List.range 10) 0 = .ub .badPointer := by decide +kernel

example : transformReduce (strictR 11 [.preferAligned, .unrollBy 2]) (List.range 11) 0 = .ok 55 := by decide +kernel
-- not enough for a vector after the prologue: no iterator of the unrolled loop is formed
example : transformReduce (strictR 6 [.preferAligned, .unrollBy 2]) (List.range 6) 0 = .ok 15 := by decide +kernel

-- constant evaluation with width 4: 7 elements are possible, 8 and 6 are not
example : transform { strictT 7 with e := { (strictT 7).e with constEval := true } } sumOp (List.range 8) = .ok (7, List.range 8) := by decide +kernel
example : transform { strictT 8 with e := { (strictT 8).e with constEval := true } } sumOp (List.range 8) = .ub .badPointer := by decide +kernel
example : transform { strictT 6 with e := { (strictT 6).e with constEval := true } } sumOp (List.range 8) = .ub .badPointer := by decide +kernel

/-! ## The theorems applied to concrete data -/

example := constTransform_strict_defined_iff (t := { strictT 7 with e := { (strictT 7).e with constEval := true } }) (mem := List.range 8)
  ⟨by decide, by decide, by decide, by decide⟩ (by decide) rfl rfl (by decide) (by decide) sumOp
example := constForEach_strict_defined_iff (e := { (strictT 7).e with constEval := true }) (by decide) rfl rfl true
  (⟨fun s args => (s, args.map (List.map (· + 10))), fun _ _ => by simp [Function.comp_def]⟩ : Callable Unit Nat) () [1, 2, 3, 4] (by decide)
  (by decide)


example := transform_strict_defined_iff (t := strictT 8) (mem := List.range 8) ⟨by decide, by decide, by decide, by decide⟩
  (libstdcxx_wf _ (by decide) ⟨2, rfl⟩ rfl (by decide) ⟨[.unrollBy 2], by decide⟩ (by decide)) rfl rfl (by show _ * _ < _; decide)
  ((reaches_iff (libstdcxx_wf _ (by decide) ⟨2, rfl⟩ rfl (by decide) ⟨[.unrollBy 2], by decide⟩ (by decide))).2 (by decide)) (by decide) (by decide) sumOp

private theorem strictWf : (strictR 11 [.preferAligned, .unrollBy 2]).e.WF :=
  libstdcxx_wf _ (by decide) ⟨2, rfl⟩ rfl (by decide) ⟨[.preferAligned, .unrollBy 2], by decide⟩ (by decide)

example := transformReduce_strict_defined_iff (R := strictR 11 [.preferAligned, .unrollBy 2]) (mem := List.range 11) ⟨by decide, by decide⟩ strictWf
  rfl rfl (by show _ * _ < _; decide) ((reaches_iff strictWf).2 (by decide)) (fun h => absurd ((ends_iff strictWf).1 h) (by decide)) (by decide)
  (by decide) hreduce_sum hreduce_sum 0

end Vir
