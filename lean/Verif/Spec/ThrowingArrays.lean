import Verif.Model.ThrowingArrays
import Verif.Spec.ArrayAlgorithms
import Verif.Spec.Throwing

/-!
# What an observer of the operation of `transform` on arrays can rely on

Elements are structs: the lists of their members. See `Verif/Spec/ArrayAlgorithms.lean`.
-/

namespace Vir.Spec
open ForEach TransformArrays

variable {α : Type}

/-- The `w` elements of a range from number `p` on. -/
def structsAt (arrays : List (List α)) (I : Range) (p w : Nat) : List (List α) :=
  (List.range w).map fun i => structAt (contents arrays I) I.c (p + i)

/-- The arguments `args` of an invocation are, for every input, the elements from number `p` to `p + w`, in some order, and in the order of
the input if the load of this input keeps the order. -/
def Got (A : AEnv) (arrays : List (List α)) (p w : Nat) (args : List (List (List α))) : Prop :=
  args.length = A.ins.length ∧ ∀ (i : Nat) (I : Range), A.ins[i]? = some I → ∃ a, args[i]? = some a ∧ a.Perm (structsAt arrays I p w) ∧
    (¬ Simdize.Unordered (I.F.env w) → a = structsAt arrays I p w)

/-- The invocations cover the elements of the inputs from number `p` on, one after the other, at most `A.e.size` at once, and every
one has as many results as elements. -/
def Covers (A : AEnv) (arrays : List (List α)) : Nat → List (OpEvent (List α)) → Prop
  | _, [] => True
  | p, ev :: evs => ∃ r, ev.result = some r ∧ (0 < r.length ∧ r.length ≤ A.e.size ∧ ∀ x ∈ r, x.length = A.out.c) ∧
    Got A arrays p r.length ev.args ∧ Covers A arrays (p + r.length) evs

/-- The arrays with the first elements of the output replaced by `ys`. -/
def overwrite (A : AEnv) (arrays : List (List α)) (ys : List (List α)) : List (List α) :=
  arrays.set A.out.arr (ys.flatten ++ (contents arrays A.out).drop (ys.length * A.out.c))

/-- The results have the type of the elements of the output. -/
def ResultsOk {σ : Type} (A : AEnv) (op : TOp σ (List α)) : Prop := ∀ s args r, (op.call s args).2 = some r → ∀ x ∈ r, x.length = A.out.c

/-- What C104 says about the outcome `r` of a call, with the record of all invocations. -/
def TransformEffects {σ : Type} (A : AEnv) (arrays : List (List α)) (r : Outcome (Int × TState (σ × List (OpEvent (List α))) (List α))) : Prop :=
  (∃ s' log evs, r = .ok ((A.n : Int), .inl ((s', log), overwrite A arrays (resultsOf evs))) ∧ log.Perm evs ∧
      Covers A arrays 0 evs ∧ (resultsOf evs).length = A.n) ∨
  (∃ i s' log evs cur last, r = .ok (i, .inr ((s', log ++ cur ++ [last]), overwrite A arrays (resultsOf evs))) ∧ log.Perm evs ∧
      Covers A arrays 0 evs ∧ (∀ ev ∈ cur, ev.result.isSome) ∧ last.result = none ∧
      (∀ ev ∈ cur ++ [last], ∃ p w, (resultsOf evs).length ≤ p ∧ 0 < w ∧ p + w ≤ A.n ∧ Got A arrays p w ev.args))

end Vir.Spec
