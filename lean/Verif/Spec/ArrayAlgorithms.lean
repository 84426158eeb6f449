import Verif.Model.ArrayAlgorithms
import Verif.Lemmas.ForEachStruct
import Verif.Spec.Transform
import Verif.Spec.ReduceEffects

/-!
# Specification of the algorithms on arrays with different element types

`structAt mem c i` (`Verif/Props/Simdize.lean`) is struct number `i` of the array `mem` of structs with `c` members.
-/

namespace Vir.Spec
open TransformArrays

variable {α : Type}

/-- The precondition on the ranges: there is at least one input, all arrays exist and have at least `n` elements, and an input in the
output array has the element type of the output. `Family.WF` is what the types guarantee. -/
structure ArraysOk (A : AEnv) (arrays : List (List α)) : Prop where
  ins_ne : A.ins ≠ []
  wf : ∀ I ∈ A.out :: A.ins, I.F.WF I.c
  mem : ∀ I ∈ A.out :: A.ins, ∃ mem, arrays[I.arr]? = some mem ∧ A.n * I.c ≤ mem.length
  same : ∀ I ∈ A.ins, I.arr = A.out.arr → I.c = A.out.c

/-- The contents of a range. -/
def contents (arrays : List (List α)) (I : Range) : List α := arrays.getD I.arr []

/-- What element `i` of the output has to be: `g` of the elements `i` of the inputs. -/
def resultAt (A : AEnv) (arrays : List (List α)) (g : List (List α) → List α) (i : Nat) : List α :=
  g (A.ins.map fun I => structAt (contents arrays I) I.c i)

/-- `arrays'` is `arrays` with the first `p` elements of the output replaced by the results: nothing else has changed. -/
structure Written (A : AEnv) (arrays : List (List α)) (g : List (List α) → List α) (p : Nat) (arrays' : List (List α)) : Prop where
  len : arrays'.length = arrays.length
  other : ∀ k, k ≠ A.out.arr → arrays'[k]? = arrays[k]?
  out : ∃ mem mem', arrays[A.out.arr]? = some mem ∧ arrays'[A.out.arr]? = some mem' ∧ mem'.length = mem.length ∧
    (∀ i < p, structAt mem' A.out.c i = resultAt A arrays g i) ∧ ∀ j, p * A.out.c ≤ j → mem'[j]? = mem[j]?

/-- No load of an input permutes the lanes (`Unordered`: three floats with eight lanes). -/
def OrderedInputs (A : AEnv) : Prop := ∀ I ∈ A.ins, ∀ w, 0 < w → w ≤ A.e.size → ¬ Simdize.Unordered (I.F.env w)

/-- The precondition of `transform_reduce` on the ranges. -/
structure InputArraysOk (ins : List Range) (n : Nat) (arrays : List (List α)) : Prop where
  ins_ne : ins ≠ []
  wf : ∀ I ∈ ins, I.F.WF I.c
  mem : ∀ I ∈ ins, ∃ mem, arrays[I.arr]? = some mem ∧ n * I.c ≤ mem.length

/-- The first `n` elements of a range. -/
def structsOf (arrays : List (List α)) (n : Nat) (I : Range) : List (List α) := (List.range n).map (structAt (contents arrays I) I.c)

/-- The transformed elements: `g` of the elements `i` of all arrays. -/
def transformedArrays {β : Type} (ins : List Range) (n : Nat) (arrays : List (List α)) (g : List (List α) → β) : List β :=
  (List.range n).map fun i => g (ins.map fun I => structAt (contents arrays I) I.c i)

/-- No two inputs differ in the order of the lanes: all loads of a width keep the order or all permute in the same way. -/
def UniformOrder (e : Env) (ins : List Range) : Prop :=
  ∀ w, 0 < w → w ≤ e.size → ∀ I ∈ ins, ∀ J ∈ ins, (Simdize.Unordered (I.F.env w) ↔ Simdize.Unordered (J.F.env w))

/-- What an observer of the operations can rely on; see `EffectsOk`. -/
def ArrayEffectsOk {σ β τ : Type} (e : Env) (ins : List Range) (n : Nat) (arrays : List (List α))
    (r : Outcome ((σ × List (REvent (List α) β τ)) × Option τ)) : Prop :=
  (∃ s' log v, r = .ok ((s', log), some v) ∧ (∀ ev ∈ log, ev.threw = false) ∧
      (∀ ev ∈ log, ShapeOk e.size ins.length ev) ∧ combined log = n ∧
      ∀ i (_ : i < ins.length), transformedArgs i log = structsOf arrays n ins[i]) ∨
  (∃ s' log last, r = .ok ((s', log ++ [last]), none) ∧ (∀ ev ∈ log, ev.threw = false) ∧ last.threw = true ∧
      (∀ ev ∈ log ++ [last], ShapeOk e.size ins.length ev) ∧ combined (log ++ [last]) ≤ n ∧
      ∀ i (_ : i < ins.length), transformedArgs i (log ++ [last]) <+: structsOf arrays n ins[i])

end Vir.Spec
