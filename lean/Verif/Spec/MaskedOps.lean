import Verif.Spec.LaneProg
import Verif.Spec.PartialOps
import Verif.Spec.CountIfPartial

/-! # What a masked program computes from the elements with one index -/

namespace Vir.Spec.OneLane
open LaneProg

variable {α : Type}

/-- Generators in the expression do not depend on the index of the lane: broadcasts. -/
def ExUniform : Ex α → Prop
  | .var _ => True
  | .gen f => ∀ i j, f i = f j
  | .un _ a => ExUniform a
  | .bin _ a b => ExUniform a ∧ ExUniform b

/-- The same for mask expressions. -/
def MkUniform : Mk α → Prop
  | .mvar _ => True
  | .cmp _ a b => ExUniform a ∧ ExUniform b
  | .and a b | .or a b => MkUniform a ∧ MkUniform b
  | .not a => MkUniform a

/-- The same for programs. -/
def Uniform : Stmt α → Prop
  | .skip => True
  | .seq a b => Uniform a ∧ Uniform b
  | .assign _ e | .compound _ _ e => ExUniform e
  | .whereAssign m _ e | .whereCompound _ m _ e => MkUniform m ∧ ExUniform e
  | .setMask _ m => MkUniform m
  | .whereMask m _ m' => MkUniform m ∧ MkUniform m'
  | .loop m body => MkUniform m ∧ Uniform body

/-- The program uses `nv` simd and `nm` mask variables, of which `V` and `M` are local, its loops are masked, and it does not depend on the
index of a lane. -/
structure IsMasked (nv nm : Nat) (V M : Nat → Prop) (p : Stmt α) : Prop where
  masked : Masked true (fun _ => False) V M p
  uses : Uses nv nm p
  uniform : Uniform p

/-- Started with the elements `xs`, further variables `zs` and `false` in the `nm` masks, the program on single elements ends with `v` in the
variable `out`. -/
def Result (zs : List α) (nm out : Nat) (p : Stmt α) (xs : List α) (v : α) : Prop :=
  ∃ l : Vars α, Run False 0 p (xs ++ zs, List.replicate nm false) l ∧ l.1[out]? = some v

/-- The same for the mask variable `out`. -/
def Says (zs : List α) (nm out : Nat) (p : Stmt α) (x : α) (b : Bool) : Prop :=
  ∃ l : Vars α, Run False 0 p (x :: zs, List.replicate nm false) l ∧ l.2[out]? = some b

end Vir.Spec.OneLane
