import Verif.Model.ReduceCalls

/-!
# What an observer sees of the calls of `transform_op` and `reduce_op`
-/

namespace Vir.Spec

variable {σ α τ : Type}

/-- One call of an operation of the user: arguments and result (`none`: it threw). -/
inductive CEvent (α τ : Type) where
  /-- `transform_op(args...)` -/
  | trans (args : List (List α)) (res : Option (List τ))
  /-- `reduce_op(x, y)` on simds -/
  | vec (x y : List τ) (res : Option (List τ))
  /-- `reduce_op(x, y)` on values -/
  | val (x y : τ) (res : Option τ)
deriving DecidableEq, Repr

/-- The call ended with an exception. -/
def CEvent.threw : CEvent α τ → Bool
  | .trans _ r => r.isNone
  | .vec _ _ r => r.isNone
  | .val _ _ r => r.isNone

/-- The operations, instrumented to record all their calls. -/
def loggedC (ops : COps σ α τ) : COps (σ × List (CEvent α τ)) α τ where
  trans s args := (((ops.trans s.1 args).1, s.2 ++ [.trans args (ops.trans s.1 args).2]), (ops.trans s.1 args).2)
  vec s x y := (((ops.vec s.1 x y).1, s.2 ++ [.vec x y (ops.vec s.1 x y).2]), (ops.vec s.1 x y).2)
  val s x y := (((ops.val s.1 x y).1, s.2 ++ [.val x y (ops.val s.1 x y).2]), (ops.val s.1 x y).2)
  transShape s := ops.transShape s.1
  vecShape s := ops.vecShape s.1

/-- What the recorded calls of `transform_op` got as argument number `i`, in the order of the record. -/
def transformedBy (i : Nat) : List (CEvent α τ) → List α
  | [] => []
  | .trans args _ :: log => args.getD i [] ++ transformedBy i log
  | _ :: log => transformedBy i log

/-- The number of pairs of values the recorded calls of `reduce_op` combine. -/
def pairsCombined : List (CEvent α τ) → Nat
  | [] => 0
  | .trans _ _ :: log => pairsCombined log
  | .vec x _ _ :: log => x.length + pairsCombined log
  | .val _ _ _ :: log => 1 + pairsCombined log

/-- The shapes a caller may rely on: `transform_op` gets `m` simds of one width, which is `size` or a smaller power of two; `reduce_op` gets
two simds of the same positive width, or two values. -/
def CShapeOk (size m : Nat) : CEvent α τ → Prop
  | .trans args _ => args.length = m ∧ ∃ w, (w = size ∨ (∃ k, w = 2 ^ k) ∧ w < size) ∧ ∀ a ∈ args, a.length = w
  | .vec x y _ => x.length = y.length ∧ x ≠ []
  | .val _ _ _ => True

/-- Calls `op` on the first value and each further one in turn, the way `std::accumulate` does. -/
def accumulate (op : σ → τ → τ → σ × Option τ) : τ → List τ → σ → σ × Option τ
  | r, [], s => (s, some r)
  | r, x :: xs, s =>
    match op s r x with
    | (s, some r) => accumulate op r xs s
    | (s, none) => (s, none)

/-- Pure operations, seen as operations with effects. -/
def pureC (trans : VecOp α τ) (op : τ → τ → τ) : COps σ α τ where
  trans s args := (s, some (trans.call args))
  vec s x y := (s, some (List.zipWith op x y))
  val s x y := (s, some (op x y))
  transShape s w args r h1 h2 h3 := by
    simp only [Option.some.injEq] at h3
    rw [← h3]; exact trans.shape w args h1 h2
  vecShape s x y r h1 h2 := by
    simp only [Option.some.injEq] at h2
    rw [← h2]; simp [h1]

end Vir.Spec
