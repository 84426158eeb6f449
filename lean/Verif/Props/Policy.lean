import Verif.Lemmas.Policy

/-!
# C20: execution policy modifiers
-/

namespace Vir.Policy

/-- The three mutually exclusive modifiers. -/
def Modifier.isMode : Modifier → Bool
  | .preferAligned | .autoPrologue | .assumeMatchingSize => true
  | _ => false
def Modifier.isUnroll : Modifier → Bool
  | .unrollBy _ => true
  | _ => false
def Modifier.isSize : Modifier → Bool
  | .preferSize _ => true
  | _ => false
/-- The documented argument ranges: `unroll_by<N>` needs `N > 1`, `prefer_size<N>` needs `N > 0`. -/
def Modifier.argOk : Modifier → Bool
  | .unrollBy n => decide (1 < n)
  | .preferSize n => decide (0 < n)
  | _ => true

/-- The documented rule for a chain of modifier calls: at most one of the mutually exclusive modifiers, each
of `unroll_by` and `prefer_size` at most once, all with valid arguments. -/
def ChainOk (ms : List Modifier) : Prop :=
  ms.countP Modifier.isMode ≤ 1 ∧ ms.countP Modifier.isUnroll ≤ 1 ∧ ms.countP Modifier.isSize ≤ 1 ∧
    ∀ m ∈ ms, m.argOk = true

/-- What is left of the rule when some modifiers have been applied already. -/
private def RestOk (p : Policy) (ms : List Modifier) : Prop :=
  (ms.countP Modifier.isMode ≤ if p.prefersAligned || p.autoPrologue || p.assumeMatchingSize then 0 else 1) ∧
  (ms.countP Modifier.isUnroll ≤ if p.unrollBy = 0 then 1 else 0) ∧
  (ms.countP Modifier.isSize ≤ if p.sizeOpt = 0 then 1 else 0) ∧ ∀ m ∈ ms, m.argOk = true

private theorem flags_of_options {p q : Policy} {o : PolicyOption} (h : q.options = p.options ++ [o]) :
    q.prefersAligned = (p.prefersAligned || o == .preferAligned) ∧
    q.autoPrologue = (p.autoPrologue || o == .autoPrologue) ∧
    q.assumeMatchingSize = (p.assumeMatchingSize || o == .assumeMatchingSize) ∧
    q.unrollBy = p.unrollBy + unrollValue o ∧ q.sizeOpt = p.sizeOpt + sizeValue o := by
  simp [prefersAligned_eq, autoPrologue_eq, assumeMatchingSize_eq, unrollBy_eq, sizeOpt_eq, h]

private theorem count_le_one_cons {α : Type} (q : α → Bool) (a : α) (l : List α) (h : q a = true) :
    (a :: l).countP q ≤ 1 ↔ l.countP q = 0 := by
  simp only [List.countP_cons, h, if_true]; omega
private theorem count_cons_false {α : Type} (q : α → Bool) (a : α) (l : List α) (h : q a = false) :
    (a :: l).countP q = l.countP q := by
  simp [h]

private theorem applyAll_isSome (p : Policy) (ms : List Modifier) :
    (p.applyAll ms).isSome = true ↔ RestOk p ms := by
  induction ms generalizing p with
  | nil => simp [applyAll, RestOk]
  | cons m ms ih =>
    simp only [applyAll]
    have hf := fun (q : Policy) (h : q.options = p.options ++ [optOf m]) => flags_of_options h
    cases m with
    | unrollBy n =>
      simp only [apply]
      by_cases h0 : p.unrollBy = 0
      · by_cases hn : 1 < n
        · obtain ⟨f1, f2, f3, f4, f5⟩ := hf ⟨p.options ++ [.unrollBy n]⟩ rfl
          simp only [h0, if_true, gt_iff_lt, hn, Option.bind_some, ih, RestOk, f1, f2, f3, f4, f5]
          rw [count_le_one_cons Modifier.isUnroll (.unrollBy n) ms rfl, count_cons_false Modifier.isMode (.unrollBy n) ms rfl,
            count_cons_false Modifier.isSize (.unrollBy n) ms rfl]
          have ha : Modifier.argOk (.unrollBy n) = true := by simp [Modifier.argOk, hn]
          simp only [optOf, unrollValue, sizeValue, List.forall_mem_cons, ha, true_and, Int.zero_add,
            Int.add_zero, show n ≠ 0 by omega, if_false, Nat.le_zero_eq]
          simp
        · simp [h0, hn, RestOk, Modifier.argOk]
      · simp [h0, RestOk, Modifier.isUnroll]
    | preferSize n =>
      simp only [apply]
      by_cases h0 : p.sizeOpt = 0
      · by_cases hn : 0 < n
        · obtain ⟨f1, f2, f3, f4, f5⟩ := hf ⟨p.options ++ [.size n]⟩ rfl
          simp only [h0, if_true, gt_iff_lt, hn, Option.bind_some, ih, RestOk, f1, f2, f3, f4, f5]
          rw [count_le_one_cons Modifier.isSize (.preferSize n) ms rfl, count_cons_false Modifier.isMode (.preferSize n) ms rfl,
            count_cons_false Modifier.isUnroll (.preferSize n) ms rfl]
          have ha : Modifier.argOk (.preferSize n) = true := by simp [Modifier.argOk, hn]
          simp only [optOf, unrollValue, sizeValue, List.forall_mem_cons, ha, true_and, Int.zero_add,
            Int.add_zero, show n ≠ 0 by omega, if_false, Nat.le_zero_eq]
          simp
        · simp [h0, hn, RestOk, Modifier.argOk]
      · simp [h0, RestOk, Modifier.isSize]
    | _ =>
      simp only [apply]
      by_cases h0 : (!p.prefersAligned && !p.autoPrologue && !p.assumeMatchingSize) = true
      · obtain ⟨f1, f2, f3, f4, f5⟩ := hf ⟨_⟩ rfl
        simp only [optOf] at f1 f2 f3 f4 f5
        simp only [h0, if_true, Option.bind_some, ih, RestOk, f1, f2, f3, f4, f5]
        simp only [Bool.and_eq_true, Bool.not_eq_true'] at h0
        simp only [h0, Bool.or_self, Bool.false_eq_true, if_false]
        rw [count_le_one_cons Modifier.isMode _ ms rfl, count_cons_false Modifier.isUnroll _ ms rfl,
          count_cons_false Modifier.isSize _ ms rfl, List.forall_mem_cons]
        simp [unrollValue, sizeValue]
        intros; rfl
      · rw [if_neg h0]
        have : (p.prefersAligned || p.autoPrologue || p.assumeMatchingSize) = true := by
          revert h0
          cases p.prefersAligned <;> cases p.autoPrologue <;> cases p.assumeMatchingSize <;> simp
        simp [RestOk, this, Modifier.isMode]

/-- **C20 (which chains compile).** A chain of modifier calls on `vir::execution::simd` is well-formed exactly
if it obeys the documented rule. -/
theorem policy_chain_ok_iff (ms : List Modifier) : (simd.applyAll ms).isSome = true ↔ ChainOk ms := by
  rw [applyAll_isSome]
  simp [RestOk, ChainOk, show simd.prefersAligned = false by decide, show simd.autoPrologue = false by decide,
    show simd.assumeMatchingSize = false by decide, show simd.unrollBy = 0 by decide,
    show simd.sizeOpt = 0 by decide]

/-- **C20 (what the policy requests).** The properties of the resulting policy are exactly the requested
ones: a flag is set iff its modifier was called, and the unroll factor and size are the given arguments, or 0
if not given. -/
theorem policy_properties (ms : List Modifier) (p : Policy) (h : simd.applyAll ms = some p) :
    (p.prefersAligned = true ↔ .preferAligned ∈ ms) ∧
    (p.autoPrologue = true ↔ .autoPrologue ∈ ms) ∧
    (p.assumeMatchingSize = true ↔ .assumeMatchingSize ∈ ms) ∧
    (∀ n, .unrollBy n ∈ ms → p.unrollBy = n) ∧
    ((∀ n, .unrollBy n ∉ ms) → p.unrollBy = 0) ∧
    (∀ n, .preferSize n ∈ ms → p.sizeOpt = n) ∧
    ((∀ n, .preferSize n ∉ ms) → p.sizeOpt = 0) := by
  have hok : ChainOk ms := (policy_chain_ok_iff ms).1 (by rw [h]; rfl)
  have ho : p.options = ms.map optOf := by simpa [simd] using applyAll_some h
  clear h
  have mem : ∀ o, p.options.any (· == o) = true ↔ ∃ m ∈ ms, optOf m = o := by
    intro o; rw [ho]; simp
  have sumU : ∀ ms : List Modifier, (∀ n, Modifier.unrollBy n ∉ ms) →
      ((ms.map optOf).map unrollValue).sum = 0 := by
    intro ms
    induction ms with
    | nil => simp
    | cons m ms ih =>
      intro h
      have := ih (fun n hn => h n (by simp [hn]))
      cases m with
      | unrollBy k => exact absurd (List.mem_cons_self) (h k)
      | _ => simp_all [optOf, unrollValue]
  have sumS : ∀ ms : List Modifier, (∀ n, Modifier.preferSize n ∉ ms) →
      ((ms.map optOf).map sizeValue).sum = 0 := by
    intro ms
    induction ms with
    | nil => simp
    | cons m ms ih =>
      intro h
      have := ih (fun n hn => h n (by simp [hn]))
      cases m with
      | preferSize k => exact absurd (List.mem_cons_self) (h k)
      | _ => simp_all [optOf, sizeValue]
  have cU : ∀ ms : List Modifier, ms.countP Modifier.isUnroll = 0 → ∀ n, Modifier.unrollBy n ∉ ms := by
    intro ms h n hn
    rw [List.countP_eq_zero] at h
    exact absurd rfl (h _ hn)
  have cS : ∀ ms : List Modifier, ms.countP Modifier.isSize = 0 → ∀ n, Modifier.preferSize n ∉ ms := by
    intro ms h n hn
    rw [List.countP_eq_zero] at h
    exact absurd rfl (h _ hn)
  refine ⟨?_, ?_, ?_, ?_, ?_, ?_, ?_⟩
  · rw [prefersAligned_eq, mem]
    constructor
    · rintro ⟨m, hm, h⟩; cases m <;> simp_all [optOf]
    · intro h; exact ⟨_, h, rfl⟩
  · rw [autoPrologue_eq, mem]
    constructor
    · rintro ⟨m, hm, h⟩; cases m <;> simp_all [optOf]
    · intro h; exact ⟨_, h, rfl⟩
  · rw [assumeMatchingSize_eq, mem]
    constructor
    · rintro ⟨m, hm, h⟩; cases m <;> simp_all [optOf]
    · intro h; exact ⟨_, h, rfl⟩
  · intro n hn
    rw [unrollBy_eq, ho]
    have hc := hok.2.1
    clear hok ho mem
    induction ms with
    | nil => simp at hn
    | cons m ms ih =>
      cases m with
      | unrollBy k =>
        simp only [List.countP_cons, Modifier.isUnroll, if_true] at hc
        have h0 := cU ms (by omega)
        have : n = k := by
          rcases List.mem_cons.1 hn with h | h
          · injection h
          · exact absurd h (h0 n)
        simp only [List.map_cons, List.sum_cons, sumU ms h0, optOf, unrollValue, this, Int.add_zero]
      | _ =>
        have := ih (by simpa using hn) (by simpa [List.countP_cons, Modifier.isUnroll] using hc)
        simpa [optOf, unrollValue] using this
  · intro h; rw [unrollBy_eq, ho]; exact sumU ms h
  · intro n hn
    rw [sizeOpt_eq, ho]
    have hc := hok.2.2.1
    clear hok ho mem
    induction ms with
    | nil => simp at hn
    | cons m ms ih =>
      cases m with
      | preferSize k =>
        simp only [List.countP_cons, Modifier.isSize, if_true] at hc
        have h0 := cS ms (by omega)
        have : n = k := by
          rcases List.mem_cons.1 hn with h | h
          · injection h
          · exact absurd h (h0 n)
        simp only [List.map_cons, List.sum_cons, sumS ms h0, optOf, sizeValue, this, Int.add_zero]
      | _ =>
        have := ih (by simpa using hn) (by simpa [List.countP_cons, Modifier.isSize] using hc)
        simpa [optOf, sizeValue] using this
  · intro h; rw [sizeOpt_eq, ho]; exact sumS ms h

/-- **C20 (order independence).** Reordering the calls of a chain changes neither whether it compiles nor the
properties of the resulting policy. -/
theorem policy_order_independent (ms ms' : List Modifier) (hp : ms.Perm ms') (p : Policy)
    (h : simd.applyAll ms = some p) :
    ∃ p', simd.applyAll ms' = some p' ∧ p'.prefersAligned = p.prefersAligned ∧
      p'.autoPrologue = p.autoPrologue ∧ p'.assumeMatchingSize = p.assumeMatchingSize ∧
      p'.unrollBy = p.unrollBy ∧ p'.sizeOpt = p.sizeOpt := by
  have hok : ChainOk ms := (policy_chain_ok_iff ms).1 (by rw [h]; rfl)
  have hok' : ChainOk ms' := by
    obtain ⟨h1, h2, h3, h4⟩ := hok
    refine ⟨?_, ?_, ?_, fun m hm => h4 m (hp.mem_iff.2 hm)⟩
    · rwa [← hp.countP_eq]
    · rwa [← hp.countP_eq]
    · rwa [← hp.countP_eq]
  obtain ⟨p', h'⟩ := Option.isSome_iff_exists.1 ((policy_chain_ok_iff ms').2 hok')
  refine ⟨p', h', ?_⟩
  obtain ⟨a1, a2, a3, a4, a5, a6, a7⟩ := policy_properties ms p h
  obtain ⟨b1, b2, b3, b4, b5, b6, b7⟩ := policy_properties ms' p' h'
  refine ⟨?_, ?_, ?_, ?_, ?_⟩
  · rw [Bool.eq_iff_iff, a1, b1, hp.mem_iff]
  · rw [Bool.eq_iff_iff, a2, b2, hp.mem_iff]
  · rw [Bool.eq_iff_iff, a3, b3, hp.mem_iff]
  · by_cases hu : ∃ n, Modifier.unrollBy n ∈ ms
    · obtain ⟨n, hn⟩ := hu
      rw [a4 n hn, b4 n (hp.mem_iff.1 hn)]
    · have hu' : ∀ n, Modifier.unrollBy n ∉ ms := fun n hn => hu ⟨n, hn⟩
      rw [a5 hu', b5 (fun n hn => hu' n (hp.mem_iff.2 hn))]
  · by_cases hu : ∃ n, Modifier.preferSize n ∈ ms
    · obtain ⟨n, hn⟩ := hu
      rw [a6 n hn, b6 n (hp.mem_iff.1 hn)]
    · have hu' : ∀ n, Modifier.preferSize n ∉ ms := fun n hn => hu ⟨n, hn⟩
      rw [a7 hu', b7 (fun n hn => hu' n (hp.mem_iff.2 hn))]

-- non-vacuity: a chain that compiles, and one that does not
example : simd.applyAll [.unrollBy 4, .preferAligned, .preferSize 3] =
    some ⟨[.unrollBy 4, .preferAligned, .size 3]⟩ := by decide
example : simd.applyAll [.preferAligned, .unrollBy 4, .autoPrologue] = none := by decide
example : ChainOk [.unrollBy 4, .preferAligned, .preferSize 3] := by
  refine ⟨by decide, by decide, by decide, by decide⟩

/-! ## The theorems applied to concrete data -/

example := policy_properties [.unrollBy 4, .preferAligned, .preferSize 3] _ rfl
example := policy_order_independent [.unrollBy 4, .preferAligned, .preferSize 3] [.preferAligned, .unrollBy 4, .preferSize 3] (by decide) _ rfl

end Vir.Policy
