import Verif.Model.CountIfEffects

/-!
# What an observer sees of the predicate of `count_if`
-/

namespace Vir.Spec
open CountIf

variable {σ α : Type}

/-- One invocation of the predicate: its argument, and the mask it returned (`none`: it threw). -/
structure PEvent (α : Type) where
  arg : List α
  result : Option (List Bool)
deriving DecidableEq, Repr

/-- The predicate `p`, instrumented to record all its invocations. -/
def loggedP (p : TPred σ α) : TPred (σ × List (PEvent α)) α where
  call s x := (((p.call s.1 x).1, s.2 ++ [⟨x, (p.call s.1 x).2⟩]), (p.call s.1 x).2)
  shape s := p.shape s.1

/-- The elements the predicate has seen, in order. -/
def seenP (log : List (PEvent α)) : List α := (log.map (·.arg)).flatten

/-- The number of `true` values in all masks the predicate has returned. -/
def truesP (log : List (PEvent α)) : Nat := (log.map fun ev => (ev.result.getD []).count true).sum

/-- The events are invocations of `p` one after the other, the first one in state `s`, the last one leaving the state `s'`. -/
def TraceP (p : TPred σ α) : σ → List (PEvent α) → σ → Prop
  | s, [], s' => s' = s
  | s, ev :: log, s' => (p.call s ev.arg).2 = ev.result ∧ TraceP p (p.call s ev.arg).1 log s'

/-- A pure predicate, seen as one with state that may throw. -/
def pureP (p : Pred α) : TPred σ α where
  call s x := (s, some (p.call x))
  shape s x r h := by
    simp only [Option.some.injEq] at h
    rw [← h]; exact p.shape x

end Vir.Spec
