import Verif.Model.Precondition

/-!
# What the documentation says about precondition checks (`/repo/README.md` 586-600, `/repo/vir/simd.h` 86-93)

Stated without the macros: the table of the README.
-/

namespace Vir.Spec

open Vir.Precondition

/-- The column "at run-time". -/
inductive RunTime where
  | invokeUb
  | trap
  | printAndAbort
deriving DecidableEq

/-- The table: compile-time error (otherwise warning), run-time action. -/
def readmeTable : List (Int × Bool × RunTime) :=
  [(0, false, .invokeUb), (1, true, .invokeUb), (2, false, .trap), (3, true, .trap), (4, false, .printAndAbort), (5, true, .printAndAbort)]

/-- A fate is what the column "at run-time" says; the message printed is `msg`. -/
def IsRunTime {α : Type} (msg : List Char) (a : RunTime) (f : Fate α) : Prop :=
  match a with
  | .invokeUb => f = .undefined
  | .trap => f = .traps
  | .printAndAbort => f = .aborts msg

/-- GCC from version 10 on, or Clang with GNU extensions: compilers with compile-time diagnostics and `__builtin_trap`. -/
def GnuLike (c : Cfg) : Prop := c.gnu = true ∧ (c.clang = true ∨ 10 ≤ c.gnuc)

/-- The text printed about a failed subscript: location, function, subscript, last valid subscript. -/
def subscriptText (loc fn : List Char) (i last : Nat) : List Char :=
  loc ++ "precondition failure in '".toList ++ fn ++ "': Subscript ".toList ++ (toString i).toList ++
    " is out of range [0, ".toList ++ (toString last).toList ++ "] ('i < size()' does not hold)\n".toList

end Vir.Spec
