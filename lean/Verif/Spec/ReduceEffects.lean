import Verif.Model.ReduceEffects

/-!
# What an observer sees of the operations passed to `transform_reduce`
-/

namespace Vir.Spec

variable {σ α β τ : Type}

/-- One invocation: arguments and result (`none`: it threw). -/
inductive REvent (α β τ : Type) where
  /-- `transform_op(args...)` -/
  | trans (args : List (List α)) (res : Option (List β))
  /-- `reduce_op(x, y)` -/
  | red (x y : List τ) (res : Option (List τ))
  /-- `reduce(v, reduce_op)` of the simd implementation, result type of `transform_op` -/
  | hredB (v : List β) (res : Option β)
  /-- `reduce(v, reduce_op)` of the simd implementation, aggregation type -/
  | hredT (v : List τ) (res : Option τ)
deriving DecidableEq, Repr

/-- The invocation ended with an exception. -/
def REvent.threw : REvent α β τ → Bool
  | .trans _ r => r.isNone
  | .red _ _ r => r.isNone
  | .hredB _ r => r.isNone
  | .hredT _ r => r.isNone

/-- The operations, instrumented to record all their invocations. -/
def loggedR (ops : ROps σ α β τ) : ROps (σ × List (REvent α β τ)) α β τ where
  trans s args := (((ops.trans s.1 args).1, s.2 ++ [.trans args (ops.trans s.1 args).2]), (ops.trans s.1 args).2)
  red s x y := (((ops.red s.1 x y).1, s.2 ++ [.red x y (ops.red s.1 x y).2]), (ops.red s.1 x y).2)
  hredB s v := (((ops.hredB s.1 v).1, s.2 ++ [.hredB v (ops.hredB s.1 v).2]), (ops.hredB s.1 v).2)
  hredT s v := (((ops.hredT s.1 v).1, s.2 ++ [.hredT v (ops.hredT s.1 v).2]), (ops.hredT s.1 v).2)
  cvt := ops.cvt
  transShape s := ops.transShape s.1
  redShape s := ops.redShape s.1

/-- What the recorded invocations of `transform_op` got as argument number `i`, in the order of the record. -/
def transformedArgs (i : Nat) : List (REvent α β τ) → List α
  | [] => []
  | .trans args _ :: log => args.getD i [] ++ transformedArgs i log
  | _ :: log => transformedArgs i log

/-- The number of pairs of elements (or intermediate results) the recorded invocations of `reduce_op` combine: `w` pairs if it is called
with objects of `w` lanes, and `w - 1` pairs in `reduce(v, reduce_op)` for an object of `w` lanes. -/
def combined : List (REvent α β τ) → Nat
  | [] => 0
  | .trans _ _ :: log => combined log
  | .red x _ _ :: log => x.length + combined log
  | .hredB v _ :: log => v.length - 1 + combined log
  | .hredT v _ :: log => v.length - 1 + combined log

/-- The shapes a caller may rely on: `transform_op` gets `m` simd objects of one width, which is `size` or a smaller power of two;
`reduce_op` gets two objects of the same positive width; the horizontal reduction is not called for an object without lanes. -/
def ShapeOk (size m : Nat) : REvent α β τ → Prop
  | .trans args _ => args.length = m ∧ ∃ w, (w = size ∨ (∃ k, w = 2 ^ k) ∧ w < size) ∧ ∀ a ∈ args, a.length = w
  | .red x y _ => x.length = y.length ∧ x ≠ []
  | .hredB v _ => v ≠ []
  | .hredT v _ => v ≠ []

/-- Pure operations, seen as operations with effects. -/
def pureOps (trans : VecOp α β) (rT : τ → τ → τ) (cvt : β → τ) (hredB : List β → β) (hredT : List τ → τ) : ROps σ α β τ where
  trans s args := (s, some (trans.call args))
  red s x y := (s, some (List.zipWith rT x y))
  hredB s v := (s, some (hredB v))
  hredT s v := (s, some (hredT v))
  cvt := cvt
  transShape s w args r h1 h2 h3 := by
    simp only [Option.some.injEq] at h3
    rw [← h3]; exact trans.shape w args h1 h2
  redShape s x y r h1 h2 := by
    simp only [Option.some.injEq] at h2
    rw [← h2]; simp [h1]

end Vir.Spec
