import Verif.Model.PartialOps
import Verif.Spec.Transform

/-!
# Specification of operations that are undefined for some arguments
-/

namespace Vir.Spec

variable {α : Type}

/-- The operation with `m` arguments acts on every lane separately, for arguments whose elements satisfy `P`: `R xs v` says that the value for the
elements `xs` is `v`. If all lanes have a value the result has a value of every lane, otherwise the behaviour is undefined. -/
structure OnEveryLane (m : Nat) (P : α → Prop) (op : POp α) (R : List α → α → Prop) : Prop where
  value : ∀ w args, args.length = m → (∀ a ∈ args, a.length = w ∧ ∀ x ∈ a, P x) → (∀ i < w, ∃ v, R (args.filterMap (·[i]?)) v) →
    ∃ r, op w args = .ok r ∧ r.length = w ∧ ∀ (i : Nat) (v : α), r[i]? = some v → R (args.filterMap (·[i]?)) v
  undef : ∀ w args, args.length = m → (∀ a ∈ args, a.length = w ∧ ∀ x ∈ a, P x) → ∀ i < w, (∀ v, ¬ R (args.filterMap (·[i]?)) v) →
    ∃ u, op w args = .ub u

/-- The elements with index `i` of all inputs of `transform`. -/
def elementsAt (t : TEnv) (mem : List α) (i : Nat) : List α := t.ins.filterMap fun a => mem[a + i]?

/-- The lists have the same length and elements with the same index are related. -/
def AllRelated (Q : α → α → Prop) (xs ys : List α) : Prop :=
  ys.length = xs.length ∧ ∀ (i : Nat) (x y : α), xs[i]? = some x → ys[i]? = some y → Q x y

end Vir.Spec
