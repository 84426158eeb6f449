import Verif.Model.CountIfEffects
import Verif.Model.SimdProg

/-!
# `count_if` with predicates that are undefined for some arguments, and with simd programs as predicates
-/

namespace Vir
namespace CountIf

variable {α : Type}

/-- A predicate on simds of a given width that may be undefined. `pred`, `/repo/vir/simd_execution.h` 1493-1496. -/
abbrev PPred (α : Type) := (w : Nat) → List α → Outcome (List Bool)

/-- An undefined invocation ends the execution: modelled like an exception after which the kind of undefined behaviour is the state. A mask of another
width does not compile (`/repo/vir/simd_execution.h` 1512-1514). -/
def exits (p : PPred α) : TPred (Outcome Unit) α where
  call s x :=
    match p x.length x with
    | .ok r => if r.length = x.length then (s, some r) else (.ub .staticAssert, none)
    | .ub u => (.ub u, none)
    | .trap => (.trap, none)
  shape s x r h := by
    split at h
    · split at h
      · cases h; assumption
      · cases h
    · cases h
    · cases h

/-- `vir::count_if(pol, first, last, pred)` (`/repo/vir/simd_execution.h` 1493-1526) with such a predicate. -/
def countIfP (e : Env) (hred : List (Outcome Int) → Outcome Int) (p : PPred α) (mem : List α) : Outcome Int := do
  match ← countIfT e hred (exits p) (.ok ()) mem with
  | (_, some r) => .ok r
  | (s, none) => do
    let _ ← s
    .ub .unreachable

end CountIf

/-- The predicate `[](auto x) { V t0 = 0, ...; M k0 = false, ...; p; return k_out; }` with `nt` further simd variables and `nm` masks; see
`SimdProg.progOp`. Invoked by `/repo/vir/simd_execution.h` 1503-1520. -/
def SimdProg.progPred (nt nm out : Nat) (p : SimdProg.Stmt) (fuel : Nat) : CountIf.PPred Int := fun w x => do
  let s ← p.run w fuel ⟨x :: List.replicate nt (List.replicate w 0), List.replicate nm (List.replicate w false)⟩
  SimdProg.get s.masks out

end Vir
