import Verif.Props.ForEach
import Verif.Props.Transform
import Verif.Props.TransformReduce

/-!
# C05: `prefer_aligned` on short ranges, all algorithms

`forEach_defined_iff`, `transform_defined_iff` and `transformReduce_defined_iff` say exactly when the behaviour is defined. Here: which
lengths are safe for every address, and that no shorter one is.
-/

namespace Vir
open Spec ForEach Transform TransformReduce

variable {σ α β τ : Type}

theorem long_enough {e : Env} (wf : e.WF) {n : Nat} (hn : e.size ≤ n) : ReachesAlignment e n ∧ ¬ EndsAtFirstAligned e n := by
  have hp : proCount e n < n := by
    have := wf.size_pos
    rcases proCount_cases e n with h | ⟨h1, h2, h3⟩
    · omega
    · obtain ⟨K, hK⟩ := proInfo wf h1
      have := hK.le_size
      have := hK.tp_lt
      omega
  rw [reaches_iff wf, ends_iff wf]
  omega

/-- **C05 (what holds instead, transform).** Ranges of at least as many elements as one full vector are always safe. -/
theorem transform_preferAligned_partial {t : TEnv} {mem : List α} (ok : RangesOk t mem) (wf : t.e.WF) (hce : t.e.constEval = false)
    (hpt : t.e.strictPtr = false) (hf : t.e.Fits t.n) (hn : t.e.size ≤ t.n) (op : VecOp α α) : (transform t op mem).Defined :=
  (transform_defined_iff ok wf hce hpt hf op).2 (long_enough wf hn).1

/-- **C05 (what holds instead, transform_reduce).** -/
theorem transformReduce_preferAligned_partial {R : REnv α β τ} {mem : List α} (ok : InputsOk R mem) (wf : R.e.WF)
    (hce : R.e.constEval = false) (hpt : R.e.strictPtr = false) (hf : R.e.Fits R.n) (hn : R.e.size ≤ R.n)
    (hT : HReduce R.rT R.hredT) (hB : HReduce R.rB R.hredB) (init : τ) : (transformReduce R mem init).Defined :=
  (transformReduce_defined_iff ok wf hce hpt hf hT hB init).2 (long_enough wf hn)

/-- `2 ^ K` elements of four bytes per vector with the alignment tables of libstdc++, one element after an aligned address. -/
def worstEnv (K : Nat) : Env where
  size := 2 ^ K
  sz := 4
  al := fun w => stdBitCeil (w * 4)
  pol := ⟨[.preferAligned]⟩
  addr := 2 ^ K * 4 + 4

theorem worstEnv_wf {K : Nat} (h : K ≤ 9) : (worstEnv K).WF := by
  refine libstdcxx_wf _ (Nat.two_pow_pos K) ⟨2, rfl⟩ rfl (Nat.dvd_add (Nat.dvd_mul_left 4 _) (Nat.dvd_refl 4)) ⟨[.preferAligned], rfl⟩ ?_
  show stdBitCeil (2 ^ K * 4) ≤ 4000
  rw [show (4 : Nat) = 2 ^ 2 from rfl, ← Nat.pow_add, stdBitCeil_two_pow]
  have : (2 : Nat) ^ (K + 2) ≤ 2 ^ 11 := Nat.pow_le_pow_right (by omega) (by omega)
  omega

theorem worstEnv_al (K : Nat) : (worstEnv K).al (worstEnv K).size = 2 ^ K * 4 := by
  show stdBitCeil (2 ^ K * 4) = 2 ^ K * 4
  rw [show (4 : Nat) = 2 ^ 2 from rfl, ← Nat.pow_add, stdBitCeil_two_pow]

theorem worstEnv_dvd {K k : Nat} : (worstEnv K).al (worstEnv K).size ∣ (worstEnv K).addr + k * (worstEnv K).sz ↔ 2 ^ K ∣ k + 1 := by
  rw [worstEnv_al]
  show 2 ^ K * 4 ∣ 2 ^ K * 4 + 4 + k * 4 ↔ _
  rw [show 2 ^ K * 4 + 4 + k * 4 = 2 ^ K * 4 + (k + 1) * 4 by omega, Nat.dvd_add_right (Nat.dvd_refl _)]
  exact Nat.mul_dvd_mul_iff_right (by omega)

theorem worstEnv_short {K n : Nat} (hK : 0 < K) (h0 : 0 < n) (hn : n + 1 < 2 ^ K) : ¬ ReachesAlignment (worstEnv K) n := by
  intro h
  have hp : 1 < 2 ^ K := Nat.one_lt_two_pow (by omega)
  rcases h (by simp [worstEnv, Policy.prefersAligned]) hp (by rw [worstEnv_al]; exact Nat.dvd_refl _)
    (by rw [worstEnv_al]; show 4 < 2 ^ K * 4; omega) with h | ⟨k, hk, hd⟩
  · omega
  · rw [worstEnv_dvd] at hd
    have := Nat.le_of_dvd (by omega) hd
    omega

/-- **C05 (no shorter length is safe).** For every vector width there is an address such that `for_each` and `transform` with
`prefer_aligned` have undefined behaviour on every non-empty range that is shorter than a vector by more than one element,
whatever the contents and the callable. -/
theorem preferAligned_short_ranges {K : Nat} (hK : 0 < K) (h9 : K ≤ 9) :
    ∃ e : Env, e.WF ∧ e.size = 2 ^ K ∧ e.pol = ⟨[.preferAligned]⟩ ∧ e.constEval = false ∧ e.strictPtr = false ∧
      ∀ n, 0 < n → n + 1 < e.size →
        (∀ (wb : Bool) (f : Callable σ α) (s : σ) (xs : List α), xs.length = n → ¬ (forEach e wb f s xs).Defined) ∧
        (∀ (ins : List Nat) (out : Nat) (mem : List α) (op : VecOp α α), RangesOk ⟨e, ins, out, n⟩ mem →
          ¬ (transform ⟨e, ins, out, n⟩ op mem).Defined) := by
  refine ⟨worstEnv K, worstEnv_wf h9, rfl, rfl, rfl, rfl, fun n h0 hn => ?_⟩
  have hn : n + 1 < 2 ^ K := hn
  have h10 : (2 : Nat) ^ K ≤ 2 ^ 9 := Nat.pow_le_pow_right (by omega) h9
  have hf : (worstEnv K).Fits n := by
    show n * 4 < 2 ^ 64
    omega
  refine ⟨fun wb f s xs hx hd => ?_, fun ins out mem op ok hd => ?_⟩
  · subst hx
    exact worstEnv_short hK h0 hn ((forEach_defined_iff (worstEnv_wf h9) rfl rfl wb f s xs hf).1 hd)
  · exact worstEnv_short hK h0 hn ((transform_defined_iff (t := ⟨worstEnv K, ins, out, n⟩) ok (worstEnv_wf h9) rfl rfl hf op).1 hd)

/-- **C05, C16 (no shorter length is safe, transform_reduce).** Here even one element less than a vector is not enough. -/
theorem preferAligned_short_reduce {K : Nat} (hK : 0 < K) (h9 : K ≤ 9) :
    ∃ e : Env, e.WF ∧ e.size = 2 ^ K ∧ e.pol = ⟨[.preferAligned]⟩ ∧ e.constEval = false ∧ e.strictPtr = false ∧
      ∀ (R : REnv α β τ) (mem : List α) (init : τ), R.e = e → 0 < R.n → R.n < e.size → InputsOk R mem →
        HReduce R.rT R.hredT → HReduce R.rB R.hredB → ¬ (transformReduce R mem init).Defined := by
  refine ⟨worstEnv K, worstEnv_wf h9, rfl, rfl, rfl, rfl, fun R mem init hR h0 hn ok hT hB hd => ?_⟩
  have hn : R.n < 2 ^ K := hn
  have h10 : (2 : Nat) ^ K ≤ 2 ^ 9 := Nat.pow_le_pow_right (by omega) h9
  have hp : 1 < 2 ^ K := Nat.one_lt_two_pow (by omega)
  have wf := worstEnv_wf h9
  have hf : (worstEnv K).Fits R.n := by
    show R.n * 4 < 2 ^ 64
    omega
  have := (transformReduce_defined_iff ok (by rw [hR]; exact wf) (by rw [hR]; rfl) (by rw [hR]; rfl) (by rw [hR]; exact hf) hT hB init).1 hd
  rw [hR] at this
  by_cases hs : R.n + 1 < 2 ^ K
  · exact worstEnv_short hK h0 hs this.1
  · refine this.2 ⟨Or.inl (by simp [worstEnv, Policy.prefersAligned]), hp, by rw [worstEnv_al]; exact Nat.dvd_refl _,
      by rw [worstEnv_al]; show 4 < 2 ^ K * 4; omega, by omega, ?_, ?_⟩
    · exact worstEnv_dvd.2 (by rw [show R.n + 1 = 2 ^ K by omega]; exact Nat.dvd_refl _)
    · intro k hk hd
      have := Nat.le_of_dvd (by omega) (worstEnv_dvd.1 hd)
      omega

-- the hypotheses are met: vectors of eight elements, five elements
example : RangesOk ⟨worstEnv 3, [0], 0, 5⟩ (List.range 5) := ⟨by decide, by decide, by decide, by decide⟩
example : ¬ (forEach (worstEnv 3) true (⟨fun s a => (s, a), fun _ _ => rfl⟩ : Callable Unit Nat) () (List.range 5)).Defined :=
  fun h => worstEnv_short (by decide) (by decide) (by decide) ((forEach_defined_iff (worstEnv_wf (by decide)) rfl rfl _ _ _ _ (by unfold Env.Fits; decide)).1 h)
example : (forEach (worstEnv 3) true (⟨fun s a => (s, a), fun _ _ => rfl⟩ : Callable Unit Nat) () (List.range 8)).Defined :=
  forEach_preferAligned_partial (worstEnv_wf (by decide)) rfl rfl _ _ _ _ (by unfold Env.Fits; decide) (by decide)

def worstR (n : Nat) : REnv Nat Nat Nat := { exampleR [.preferAligned] [0] n with e := worstEnv 3 }

example : InputsOk (worstR 7) (List.range 7) := ⟨by decide, by decide⟩
example : (transformReduce (worstR 9) (List.range 9) 100).Defined :=
  transformReduce_preferAligned_partial ⟨by decide, by decide⟩ (worstEnv_wf (by decide)) rfl rfl (by show _ * _ < _; decide) (by decide)
    hreduce_sum hreduce_sum 100

/-! ## The theorems applied to concrete data -/

example := transform_preferAligned_partial (t := ⟨worstEnv 3, [0], 0, 8⟩) (mem := List.range 8) ⟨by decide, by decide, by decide, by decide⟩
  (worstEnv_wf (by decide)) rfl rfl (by show _ * _ < _; decide) (by decide) sumOp
example := preferAligned_short_ranges (σ := Unit) (α := Nat) (K := 3) (by decide) (by decide)
example := preferAligned_short_reduce (α := Nat) (β := Nat) (τ := Nat) (K := 3) (by decide) (by decide)

end Vir
