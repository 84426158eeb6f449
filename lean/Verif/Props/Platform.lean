import Verif.Spec.Platform
import Verif.Lemmas.Bits

/-!
# The platform assumptions are satisfiable

The alignment tables of the two simd implementations vir-simd runs on satisfy `Env.WF`.
-/

namespace Vir

theorem stdBitCeil_pow (n : Nat) : ∃ k, stdBitCeil n = 2 ^ k := by
  unfold stdBitCeil
  split
  · exact ⟨0, rfl⟩
  · exact ⟨_, rfl⟩

theorem le_stdBitCeil (n : Nat) : n ≤ stdBitCeil n := by
  by_cases h : 1 < n
  · obtain ⟨K, h1, _, h2⟩ := stdBitCeil_spec h
    omega
  · unfold stdBitCeil; split <;> omega

theorem stdBitCeil_two_pow (k : Nat) : stdBitCeil (2 ^ k) = 2 ^ k := by
  cases k with
  | zero => decide
  | succ k =>
    have := Nat.two_pow_pos k
    exact stdBitCeil_unique (by rw [Nat.pow_succ]; omega) (Nat.le_refl _)

theorem stdBitCeil_mono_dvd {k n : Nat} (h : 2 ^ k ≤ n) : 2 ^ k ∣ stdBitCeil n := by
  obtain ⟨m, hm⟩ := stdBitCeil_pow n
  have := le_stdBitCeil n
  rw [hm] at this ⊢
  exact Nat.pow_dvd_pow 2 ((Nat.pow_le_pow_iff_right (by omega)).1 (Nat.le_trans h this))

/-- libstdc++: `memory_alignment<simd<T, Abi>>` is `bit_ceil(sizeof(T) * size)`; `sizeof(T)` is a power of
two. -/
theorem libstdcxx_wf (e : Env) (hs : 0 < e.size) (hz : ∃ b, e.sz = 2 ^ b)
    (hal : e.al = fun w => stdBitCeil (w * e.sz)) (ha : e.sz ∣ e.addr) (hp : e.pol.Reachable)
    (hle : stdBitCeil (e.size * e.sz) ≤ 4000) : e.WF := by
  obtain ⟨b, hb⟩ := hz
  have hsz : 0 < e.sz := by rw [hb]; exact Nat.two_pow_pos b
  refine ⟨hs, hsz, ?_, ?_, ?_, ?_, ?_, fun _ => ha, hp⟩
  · intro w
    rw [hal]
    obtain ⟨k, hk⟩ := stdBitCeil_pow (w * e.sz)
    simp only [hk]; exact Nat.two_pow_pos k
  · intro j _
    rw [hal]
    simp only [hb, ← Nat.pow_add, stdBitCeil_two_pow]
    exact Nat.dvd_refl _
  · intro j hj
    rw [hal]
    simp only [hb, ← Nat.pow_add, stdBitCeil_two_pow]
    rw [← hb]
    apply stdBitCeil_mono_dvd
    rw [Nat.pow_add, ← hb]
    exact Nat.mul_le_mul_right _ hj
  · intro _ hd
    rw [hal] at hd ⊢
    simp only at hd ⊢
    have h1 := le_stdBitCeil (e.size * e.sz)
    obtain ⟨m, hm⟩ := stdBitCeil_pow (e.size * e.sz)
    rw [hm] at h1 hd ⊢
    have h2 : e.sz ≤ 2 ^ m := Nat.le_trans (Nat.le_mul_of_pos_left _ hs) h1
    rw [hb] at h2 ⊢
    have h3 := (Nat.pow_le_pow_iff_right (by omega : 1 < 2)).1 h2
    exact ⟨m - b, by rw [← Nat.pow_add]; congr 1; omega⟩
  · rw [hal]; exact hle

/-- Fallback `vir/simd.h` (575-577) and simdized structs (`simdize.h` 387-388, 542-543): the alignment is
`alignof(T)`, which divides `sizeof(T)`. -/
theorem fallback_wf (e : Env) (A : Nat) (hs : 0 < e.size) (hz : 0 < e.sz) (hA : 0 < A) (hd : A ∣ e.sz)
    (hal : e.al = fun _ => A) (hp : e.pol.Reachable) (hle : A ≤ 4000) : e.WF := by
  have hAsz : A ≤ e.sz := Nat.le_of_dvd hz hd
  refine ⟨hs, hz, ?_, ?_, ?_, ?_, ?_, ?_, hp⟩
  all_goals rw [hal]
  · intro _; exact hA
  · intro j _; exact Nat.dvd_trans hd (Nat.dvd_mul_left _ _)
  · intro j _; exact Nat.dvd_refl _
  · intro h; exact absurd h (by simp only; omega)
  · exact hle
  · intro h; exact absurd h (by simp only; omega)

/-- `float` with 16-byte vectors on libstdc++, `prefer_aligned` and unrolling, at an address that is not
16-byte aligned. -/
def exampleEnv : Env where
  size := 4
  sz := 4
  al := fun w => stdBitCeil (w * 4)
  pol := ⟨[.preferAligned, .unrollBy 2]⟩
  addr := 0x1004

theorem exampleEnv_wf : exampleEnv.WF :=
  libstdcxx_wf exampleEnv (by decide) ⟨2, rfl⟩ rfl (by decide) ⟨[.preferAligned, .unrollBy 2], by decide⟩
    (by decide)

end Vir
