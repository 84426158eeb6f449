import Verif.Model.ThrowingStruct
import Verif.Spec.Structs
import Verif.Spec.Throwing

/-!
# Recording the invocations of callables on simdized structs

The simdized structs passed to an invocation are a list of lists of member vectors.
-/

namespace Vir.Spec
open Vir.ForEachStruct

variable {σ α : Type} {c : Nat}

/-- The callable `f`, instrumented to record the simdized structs it is called with and what it left in them (`none`: it threw). -/
def loggedST (f : STCallable σ α c) : STCallable (σ × List (TEvent (List α))) α c where
  call s vs := (((f.call s.1 vs).1, s.2 ++ [⟨vs, (f.call s.1 vs).2⟩]), (f.call s.1 vs).2)
  shape s := f.shape s.1

/-- An invocation with lists of structs, as an invocation with simdized structs. -/
def simdized (ev : TEvent (Vector α c)) : TEvent (List α) := ⟨ev.args.map members, ev.result.map (·.map members)⟩

/-- A callable that never throws, seen as one that may. -/
def neverThrowsS (f : SCallable σ α c) : STCallable σ α c where
  call s vs := ((f.call s vs).1, some (f.call s vs).2)
  shape s vs w r h hr := by
    simp only [Option.some.injEq] at hr
    rw [← hr]; exact f.shape s vs w h

end Vir.Spec
