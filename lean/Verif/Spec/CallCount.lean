import Verif.Spec.Throwing
import Verif.Spec.CountIfEffects
import Verif.Spec.ReduceEffects

/-!
# Number of invocations

An algorithm that processes `n` elements with simd objects of `size` lanes should need about `n / size` invocations of the callable.
The exact bound is `n / size` plus a number of invocations for the unaligned start and for the remaining elements that depends on
`size` only: `j` each, if `size ≤ 2^j`.
-/

namespace Vir.Spec

variable {σ α β τ : Type}

/-- The number of invocations of `transform_op` in a record. -/
def transCalls : List (REvent α β τ) → Nat
  | [] => 0
  | .trans _ _ :: log => transCalls log + 1
  | _ :: log => transCalls log

/-- The number of invocations of `reduce_op` on simd objects, and of `reduce(v, reduce_op)`, in a record. -/
def reduceCallsIn : List (REvent α β τ) → Nat
  | [] => 0
  | .trans _ _ :: log => reduceCallsIn log
  | _ :: log => reduceCallsIn log + 1

/-- The number of simd objects passed to the callable of `for_each`. -/
def simdArguments (log : List (TEvent α)) : Nat := (log.map fun ev => ev.args.length).sum

/-- The record of the invocations, whether the algorithm returned (`.inl`) or was left by an exception (`.inr`). -/
def recordOf {E : Type} (r : ((σ × List E) × List α) ⊕ ((σ × List E) × List α)) : List E := r.elim (·.1.2) (·.1.2)

/-- The algorithm has no reason to process single elements first: the range starts at an aligned address, or the policy does not
ask for aligned accesses. -/
def StartsAligned (e : Env) : Prop := e.al e.size ∣ e.addr ∨ (e.pol.prefersAligned = false ∧ e.pol.autoPrologue = false)

end Vir.Spec
