import Verif.Model.Throwing

/-!
# What an observer sees of callables that may throw
-/

namespace Vir.Spec

variable {σ α : Type}

/-- One invocation: the simd arguments passed in, and what the callable left in them (`none`: it threw). -/
structure TEvent (α : Type) where
  args : List (List α)
  result : Option (List (List α))
deriving DecidableEq, Repr

/-- The callable `f`, instrumented to record all its invocations. -/
def loggedT (f : TCallable σ α) : TCallable (σ × List (TEvent α)) α where
  call s cs := (((f.call s.1 cs).1, s.2 ++ [⟨cs, (f.call s.1 cs).2⟩]), (f.call s.1 cs).2)
  shape s := f.shape s.1

/-- The lanes of all arguments of all recorded invocations, in order. -/
def visitedT (log : List (TEvent α)) : List α := (log.map fun ev => ev.args.flatten).flatten

/-- The lanes the callable left in the arguments of all invocations that did not throw, in order. -/
def producedT (log : List (TEvent α)) : List α := (log.map fun ev => (ev.result.getD []).flatten).flatten

/-- A callable that never throws, seen as one that may. -/
def neverThrows (f : Callable σ α) : TCallable σ α where
  call s cs := ((f.call s cs).1, some (f.call s cs).2)
  shape s cs r h := by
    simp only [Option.some.injEq] at h
    rw [← h]; exact f.shape s cs

end Vir.Spec

namespace Vir.Spec

variable {σ α : Type}

/-- One invocation of the operation of `transform`: the arguments and the result (`none`: it threw). -/
structure OpEvent (α : Type) where
  args : List (List α)
  result : Option (List α)
deriving DecidableEq, Repr

/-- The operation `op`, instrumented to record all its invocations. -/
def loggedOp (op : TOp σ α) : TOp (σ × List (OpEvent α)) α where
  call s cs := (((op.call s.1 cs).1, s.2 ++ [⟨cs, (op.call s.1 cs).2⟩]), (op.call s.1 cs).2)
  shape s := op.shape s.1

/-- The results of all recorded invocations, in the order of the record. -/
def resultsOf (log : List (OpEvent α)) : List α := (log.map fun ev => ev.result.getD []).flatten

/-- What the recorded invocations got as argument number `i`, in the order of the record. -/
def argsOf (i : Nat) (log : List (OpEvent α)) : List α := (log.map fun ev => ev.args.getD i []).flatten

/-- A pure operation, seen as one with (trivial use of) state that may throw. -/
def pureOp (op : VecOp α α) : TOp σ α where
  call s args := (s, some (op.call args))
  shape s w args r h1 h2 h3 := by
    simp only [Option.some.injEq] at h3
    rw [← h3]; exact op.shape w args h1 h2

end Vir.Spec
