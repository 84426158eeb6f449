import Verif.Model.Version

/-!
# C43: version numbers
-/

namespace Vir.Spec
open Version

/-- The lexicographic order on (major, minor, patchlevel). -/
def LexLt (a b : Version) : Prop :=
  a.major < b.major ∨ a.major = b.major ∧ (a.minor < b.minor ∨ a.minor = b.minor ∧ a.patchlevel < b.patchlevel)

/-- The number that `VIR_SIMD_VERSION` has for the components `a`. -/
def encode (a : Version) : Int := a.major * 0x10000 + a.minor * 0x100 + a.patchlevel

/-- Components that fit the encoding. -/
def Encodable (a : Version) : Prop :=
  0 ≤ a.major ∧ (0 ≤ a.minor ∧ a.minor < 256) ∧ (0 ≤ a.patchlevel ∧ a.patchlevel < 256)

end Vir.Spec

namespace Vir.Version
open Spec

/-- **C43.** `==` is equality. -/
theorem eq_iff (a b : Version) : eq a b = true ↔ a = b := by
  cases a; cases b; simp [eq, and_assoc]

/-- **C43.** `!=` is its negation. -/
theorem ne_iff (a b : Version) : ne a b = true ↔ a ≠ b := by
  simp [ne, ← eq_iff]

/-- **C43.** `<` is the lexicographic order. -/
theorem lt_iff (a b : Version) : lt a b = true ↔ LexLt a b := by
  simp only [lt, LexLt, Bool.or_eq_true, Bool.and_eq_true, decide_eq_true_eq, beq_iff_eq]
  omega

/-- **C43.** `<=` is the reflexive closure of `<`. -/
theorem le_iff (a b : Version) : le a b = true ↔ LexLt a b ∨ a = b := by
  cases a; cases b
  simp only [le, LexLt, Bool.or_eq_true, Bool.and_eq_true, decide_eq_true_eq, beq_iff_eq, Version.mk.injEq]
  omega

/-- **C43.** `>` and `>=` are the reversed orders. -/
theorem gt_ge_iff (a b : Version) :
    (gt a b = true ↔ LexLt b a) ∧ (ge a b = true ↔ LexLt b a ∨ a = b) := by
  refine ⟨lt_iff b a, ?_⟩
  rw [ge, le_iff, eq_comm]

/-- **C43.** The order is total: exactly one of `<`, `==`, `>` holds, and `<` is transitive. -/
theorem order_total (a b c : Version) :
    (lt a b = true ∧ eq a b = false ∧ gt a b = false ∨
      lt a b = false ∧ eq a b = true ∧ gt a b = false ∨
      lt a b = false ∧ eq a b = false ∧ gt a b = true) ∧
    (lt a b = true → lt b c = true → lt a c = true) ∧
    (le a b = true ↔ gt a b = false) ∧ (ge a b = true ↔ lt a b = false) := by
  cases a; cases b; cases c
  simp only [lt, gt, eq, le, ge, Bool.or_eq_true, Bool.and_eq_true, Bool.or_eq_false_iff, Bool.and_eq_false_iff,
    decide_eq_true_eq, decide_eq_false_iff_not, beq_iff_eq, beq_eq_false_iff_ne]
  refine ⟨?_, ?_, ?_, ?_⟩ <;> omega

private theorem cmpInt_cases (a b : Int) :
    (cmpInt a b = .lt ∧ a < b) ∨ (cmpInt a b = .eq ∧ a = b) ∨ (cmpInt a b = .gt ∧ b < a) := by
  unfold cmpInt
  rcases Int.lt_trichotomy a b with h | h | h
  · exact .inl ⟨by simp [h], h⟩
  · exact .inr (.inl ⟨by simp [h], h⟩)
  · exact .inr (.inr ⟨by rw [if_neg (by omega), if_neg (by omega)], h⟩)

/-- **C43.** The defaulted `<=>` gives the same order as the written operators. -/
theorem spaceship_agrees (a b : Version) :
    (spaceship a b = .lt ↔ lt a b = true) ∧ (spaceship a b = .eq ↔ eq a b = true) ∧
      (spaceship a b = .gt ↔ gt a b = true) := by
  cases a with | mk a1 a2 a3 =>
  cases b with | mk b1 b2 b3 =>
  simp only [spaceship, lt, gt, eq, Bool.or_eq_true, Bool.and_eq_true, decide_eq_true_eq, beq_iff_eq]
  rcases cmpInt_cases a1 b1 with ⟨h1, h1'⟩ | ⟨h1, h1'⟩ | ⟨h1, h1'⟩ <;>
    rcases cmpInt_cases a2 b2 with ⟨h2, h2'⟩ | ⟨h2, h2'⟩ | ⟨h2, h2'⟩ <;>
    rcases cmpInt_cases a3 b3 with ⟨h3, h3'⟩ | ⟨h3, h3'⟩ | ⟨h3, h3'⟩ <;>
    simp only [h1, h2, h3, true_iff, reduceCtorEq, false_iff] <;> omega

/-- **C43.** Decoding the version macro recovers the components. -/
theorem versionOf_encode (a : Version) (h : Encodable a) : versionOf (encode a) = a := by
  obtain ⟨h1, ⟨h2, h3⟩, h4, h5⟩ := h
  cases a
  simp only [versionOf, macroMajor, macroMinor, macroPatchlevel, encode] at *
  rw [Int.tdiv_eq_ediv_of_nonneg (by omega), Int.tmod_eq_emod_of_nonneg (by omega), Int.tmod_eq_emod_of_nonneg (by omega),
    Int.tdiv_eq_ediv_of_nonneg (by omega)]
  simp only [Version.mk.injEq]
  omega

/-- **C43.** Every nonnegative version number encodes its decoded components, which fit the encoding. -/
theorem encode_versionOf (v : Int) (h : 0 ≤ v) : encode (versionOf v) = v ∧ Encodable (versionOf v) := by
  simp only [versionOf, macroMajor, macroMinor, macroPatchlevel, encode, Encodable]
  rw [Int.tdiv_eq_ediv_of_nonneg (by omega), Int.tmod_eq_emod_of_nonneg (by omega), Int.tmod_eq_emod_of_nonneg (by omega),
    Int.tdiv_eq_ediv_of_nonneg (by omega)]
  omega

/-- **C43.** The numeric order of version numbers is the order of the components. -/
theorem encode_lt_iff (a b : Version) (ha : Encodable a) (hb : Encodable b) :
    encode a < encode b ↔ lt a b = true := by
  rw [lt_iff]
  obtain ⟨h1, ⟨h2, h3⟩, h4, h5⟩ := ha
  obtain ⟨h6, ⟨h7, h8⟩, h9, h10⟩ := hb
  simp only [encode, LexLt]
  omega

/-- **C43.** The current version is 0.4.189, a development version (odd patchlevel, below the alphas). -/
theorem current_version :
    versionOf macroVersion = ⟨0, 4, 189⟩ ∧ lt ⟨0, 4, 0⟩ (versionOf macroVersion) = true ∧
      lt (versionOf macroVersion) ⟨0, 5, 0⟩ = true := by decide

/-! ### the theorems are about something -/

example : lt ⟨0, 4, 255⟩ ⟨0, 5, 0⟩ = true ∧ lt ⟨1, 0, 0⟩ ⟨0, 9, 9⟩ = false := by decide
example : Encodable ⟨0, 4, 189⟩ ∧ encode ⟨0, 4, 189⟩ = macroVersion := by unfold Encodable; decide

/-! ## The theorems applied to concrete data -/

example := versionOf_encode ⟨0, 4, 189⟩ (by unfold Encodable; decide)
example := encode_versionOf 1213 (by decide)
example := encode_lt_iff ⟨0, 4, 189⟩ ⟨0, 5, 0⟩ (by unfold Encodable; decide) (by unfold Encodable; decide)

end Vir.Version
