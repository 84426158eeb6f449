import Verif.Model.CountIfPartial
import Verif.Spec.SimdProg

/-! # What a program used as predicate says about one element -/

namespace Vir.Spec
open SimdProg

/-- Started with `x`, zeros in the `nt` further variables and `false` in the `nm` masks, the program on numbers ends with `b` in the mask
variable `out`. -/
def ProgMask (nt nm out : Nat) (p : Stmt) (x : Int) (b : Bool) : Prop :=
  ∃ l : Lane, LaneRun p (x :: List.replicate nt 0, List.replicate nm false) l ∧ l.2[out]? = some b

/-- The same with `LaneSteps`: without `idle` the program on numbers, with `idle` further iterations of loops are allowed. -/
def StepsMask (idle : Prop) (nt nm out : Nat) (p : Stmt) (x : Int) (b : Bool) : Prop :=
  ∃ l : Lane, LaneSteps idle p (x :: List.replicate nt 0, List.replicate nm false) l ∧ l.2[out]? = some b

/-- `bs` has one answer for every element of `xs`, each related to its element. -/
def Answers {α : Type} (R : α → Bool → Prop) (xs : List α) (bs : List Bool) : Prop :=
  bs.length = xs.length ∧ ∀ (i : Nat) (x : α) (b : Bool), xs[i]? = some x → bs[i]? = some b → R x b

end Vir.Spec
