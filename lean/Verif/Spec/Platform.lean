import Verif.Model.ForEach
import Verif.Lemmas.Policy

/-!
# What is assumed about the platform

Facts about the simd implementation and the call site that the algorithms rely on. They are hypotheses of the
theorems; `libstdcxx_wf` and `fallback_wf` in `Verif/Props/Platform.lean` show that the alignment tables of
libstdc++ and of the fallback implementation satisfy them.
-/

namespace Vir

structure Env.WF (e : Env) : Prop where
  size_pos : 0 < e.size
  sz_pos : 0 < e.sz
  al_pos : ∀ w, 0 < e.al w
  /-- a vector-aligned access of a power-of-two width needs at most the natural alignment of that width -/
  al_natural : ∀ j, 2 ^ j ≤ e.size → e.al (2 ^ j) ∣ 2 ^ j * e.sz
  /-- narrower vectors need no more alignment than the full width -/
  al_mono : ∀ j, 2 ^ j ≤ e.size → e.al (2 ^ j) ∣ e.al e.size
  /-- over-aligned vectors: the alignment is a power-of-two multiple of the element size -/
  al_pow : e.sz < e.al e.size → (e.al e.size) ∣ e.size * e.sz → ∃ K, e.al e.size = 2 ^ K * e.sz
  /-- ... and it is smaller than a page -/
  al_le : e.al e.size ≤ 4000
  /-- the range is aligned for its element type, and alignments are as large as sizes (true of all vectorizable
  types on the ABIs in question, except `double` and 64-bit integers in structs on i386) -/
  addr_dvd : e.sz < e.al e.size → e.sz ∣ e.addr
  /-- the policy was built by modifier calls -/
  pol_reachable : e.pol.Reachable

/-- Number of bytes of a range is representable in `std::size_t`. -/
def Env.Fits (e : Env) (n : Nat) : Prop := n * e.sz < 2 ^ 64

end Vir
