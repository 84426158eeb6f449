import Verif.Model.CountIfStructEffects
import Verif.Spec.CountIfEffects
import Verif.Spec.Structs

/-!
# What an observer sees of the predicate of `count_if` on an array of structs

The argument of an invocation is a simdized struct: the list of its member vectors.
-/

namespace Vir.Spec
open CountIfStruct ForEachStruct

variable {σ α : Type} {c : Nat}

/-- The predicate `p`, instrumented to record all its invocations. -/
def loggedSP (p : STPred σ α c) : STPred (σ × List (PEvent (List α))) α c where
  call s x := (((p.call s.1 x).1, s.2 ++ [⟨x, (p.call s.1 x).2⟩]), (p.call s.1 x).2)
  shape s := p.shape s.1

/-- An invocation with a list of structs, as an invocation with a simdized struct. -/
def simdizedP (ev : PEvent (Vector α c)) : PEvent (List α) := ⟨members ev.arg, ev.result⟩

/-- The events are invocations of `p` one after the other, the first one in state `s`, the last one leaving the state `s'`. -/
def TraceSP (p : STPred σ α c) : σ → List (PEvent (List α)) → σ → Prop
  | s, [], s' => s' = s
  | s, ev :: log, s' => (p.call s ev.arg).2 = ev.result ∧ TraceSP p (p.call s ev.arg).1 log s'

/-- A pure predicate, seen as one with state that may throw. -/
def pureSP (p : SPred α c) : STPred σ α c where
  call s x := (s, some (p.call x))
  shape s v w r h1 h2 h := by
    simp only [Option.some.injEq] at h
    rw [← h]; exact p.shape v w h1 h2

end Vir.Spec
