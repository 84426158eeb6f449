import Verif.Spec.ArrayAlgorithms
import Verif.Spec.StructPieces
import Verif.Spec.CallCount

/-!
# Specification of `transform` on arrays of structs whose loads may permute the lanes
-/

namespace Vir.Spec
open TransformArrays

variable {α : Type}

/-- `arrays'` is `arrays` after a `transform` that goes through the eight elements from `b` on with one invocation for every `b` in `eights`.
In such an invocation the element at offset `j` of the output is made from the elements at offset `3 * j % 8` of the inputs that are
loaded unordered and the elements at offset `j` of the other inputs. Every other element of the output is made from the elements at its
own position; nothing else has changed. -/
structure WrittenPlaces (A : AEnv) (arrays : List (List α)) (g : List (List α) → List α) (eights : Nat → Prop) (arrays' : List (List α)) :
    Prop where
  len : arrays'.length = arrays.length
  other : ∀ k, k ≠ A.out.arr → arrays'[k]? = arrays[k]?
  out : ∃ mem mem', arrays[A.out.arr]? = some mem ∧ arrays'[A.out.arr]? = some mem' ∧ mem'.length = mem.length ∧
    (∀ b j, eights b → j < 8 → structAt mem' A.out.c (b + j) =
      g (A.ins.map fun I => structAt (contents arrays I) I.c (b + if Simdize.Unordered (I.F.env 8) then 3 * j % 8 else j))) ∧
    (∀ i < A.n, (∀ b, eights b → i < b ∨ b + 8 ≤ i) → structAt mem' A.out.c i = resultAt A arrays g i) ∧
    ∀ j, A.n * A.out.c ≤ j → mem'[j]? = mem[j]?

/-- The blocks of eight are inside of the range and do not overlap. -/
def EightsOk (n : Nat) (eights : Nat → Prop) : Prop :=
  (∀ b, eights b → b + 8 ≤ n) ∧ ∀ b b', eights b → eights b' → b < b' → b + 8 ≤ b'

/-- `p` elements are processed before the main loop: none, or those before the first aligned address. -/
def LeadIn (e : Env) (p : Nat) : Prop :=
  p = 0 ∨ (p < e.size ∧ e.al e.size ∣ e.addr + p * e.sz ∧ ∀ k < p, ¬ e.al e.size ∣ e.addr + k * e.sz)

/-- The policy asks for aligned stores, and full simd objects are aligned more strictly than elements. -/
def AsksAligned (e : Env) : Prop := e.pol.prefersAligned = true ∧ 1 < e.size ∧ e.al e.size ∣ e.size * e.sz ∧ e.sz < e.al e.size

/-- `EightAt`, if `p` elements are processed before the main loop, in ascending powers of two. -/
def EightFrom (size n p b : Nat) : Prop := (8 ≤ p % 16 ∧ b = p % 8) ∨ (p ≤ b ∧ EightAt size (n - p) (b - p))

end Vir.Spec
