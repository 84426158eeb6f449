import Mathlib.Data.List.Forall2

/-!
# Generalized sums

`GENERALIZED_SUM` of the C++ standard ([numerics.defns]): the operands are combined pairwise in any order and
any grouping.
-/

namespace Vir.Spec

/-- `GSum r xs v`: `v` is obtained from the elements of `xs`, each used exactly once, by applying `r` in some
order and grouping. -/
inductive GSum {β : Type} (r : β → β → β) : List β → β → Prop
  | single (x : β) : GSum r [x] x
  | node {xs ys : List β} {a b : β} : GSum r xs a → GSum r ys b → GSum r (xs ++ ys) (r a b)
  | perm {xs ys : List β} {a : β} : xs.Perm ys → GSum r xs a → GSum r ys a

/-- `ys` is obtained from `xs` by cutting it into consecutive pieces, combining each piece with `r` in some order
and grouping, and converting the results. -/
def Grouped {β τ : Type} (r : β → β → β) (cvt : β → τ) (xs : List β) (ys : List τ) : Prop :=
  ∃ (pieces : List (List β)) (bs : List β), pieces.flatten = xs ∧ List.Forall₂ (GSum r) pieces bs ∧
    ys = bs.map cvt

/-- A horizontal reduction is correct if its result is a generalized sum of the lanes. -/
def HReduce {β : Type} (r : β → β → β) (hred : List β → β) : Prop := ∀ v, v ≠ [] → GSum r v (hred v)

end Vir.Spec
