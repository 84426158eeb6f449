import Verif.Spec.ArrayAlgorithms

/-!
# Effects of `transform_reduce` on arrays of structs whose loads permute the lanes (C72)
-/

namespace Vir.Spec
open TransformArrays TransformReduce

variable {σ α β τ : Type}

/-- What the recorded invocations of `transform_op` got in each lane: lane `l` gets element `l` of every argument. -/
def transformedRows : List (REvent α β τ) → List (List α)
  | [] => []
  | .trans args _ :: log => ((List.range (args.headD []).length).map fun l => args.filterMap (·[l]?)) ++ transformedRows log
  | _ :: log => transformedRows log

/-- The elements with index `i` of all ranges, for all `i < n`. -/
def elementRows (ins : List Range) (n : Nat) (arrays : List (List α)) : List (List (List α)) :=
  (List.range n).map fun i => ins.map fun I => structAt (contents arrays I) I.c i

/-- As `EffectsOk`, with `Seen log q` for what `transform_op` was given when the first `q` elements have been processed. -/
def EffectsWith (size m n : Nat) (Seen : List (REvent α β τ) → Nat → Prop) (r : Outcome ((σ × List (REvent α β τ)) × Option τ)) : Prop :=
  (∃ s' log v, r = .ok ((s', log), some v) ∧ (∀ ev ∈ log, ev.threw = false) ∧ (∀ ev ∈ log, ShapeOk size m ev) ∧ combined log = n ∧
      Seen log n) ∨
  (∃ s' log last, r = .ok ((s', log ++ [last]), none) ∧ (∀ ev ∈ log, ev.threw = false) ∧ last.threw = true ∧
      (∀ ev ∈ log ++ [last], ShapeOk size m ev) ∧ combined (log ++ [last]) ≤ n ∧ ∃ q, q ≤ n ∧ Seen (log ++ [last]) q)

/-- `transform_op` was given the first `q` elements of every range, each once. -/
def EachOnce (ins : List Range) (n : Nat) (arrays : List (List α)) (log : List (REvent (List α) β τ)) (q : Nat) : Prop :=
  ∀ i (_ : i < ins.length), (transformedArgs i log).Perm ((structsOf arrays n ins[i]).take q)

/-- `transform_op` was given the first `q` elements of all ranges, each once and together with those of the same index. -/
def RowsOnce (ins : List Range) (n : Nat) (arrays : List (List α)) (log : List (REvent (List α) β τ)) (q : Nat) : Prop :=
  (transformedRows log).Perm ((elementRows ins n arrays).take q)

end Vir.Spec
