import Verif.Spec.SimdProg
import Verif.Spec.PartialOps

/-! # What a program computes from the elements with one index -/

namespace Vir.Spec
open SimdProg

/-- Started with the elements `xs`, zeros in the `nt` further variables and `false` in the `nm` masks, the program on numbers ends with
`v` in the variable `out`. -/
def ProgValue (nt nm out : Nat) (p : Stmt) (xs : List Int) (v : Int) : Prop :=
  ∃ l : Lane, LaneRun p (xs ++ List.replicate nt 0, List.replicate nm false) l ∧ l.1[out]? = some v

/-- Started like this the statements can take the elements to `v` in the variable `out`. Without `idle` this is the program on numbers; with
`idle` further iterations of loops are allowed (see `LaneSteps`). -/
def StepsValue (idle : Prop) (nt nm out : Nat) (p : Stmt) (xs : List Int) (v : Int) : Prop :=
  ∃ l : Lane, LaneSteps idle p (xs ++ List.replicate nt 0, List.replicate nm false) l ∧ l.1[out]? = some v

end Vir.Spec
