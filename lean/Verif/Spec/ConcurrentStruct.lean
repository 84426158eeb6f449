import Verif.Spec.Concurrent
import Verif.Model.ConcurrentStruct
import Verif.Props.ForEachStruct

/-!
# Calls on arrays and on arrays of structs that run concurrently
-/

namespace Vir.Threads
open Spec ForEachStruct

variable {α : Type}

/-- A call on arrays of elements (`Verif/Spec/Concurrent.lean`), or a call of `for_each` on the `n` structs with `c` members at `base`, with
or without write-back, whose callable has the state `s`. `A` is the alignment of the struct. -/
inductive AnyCall (α : Type) : Type 1 where
  | elements (a : Alg α)
  | structs (e : Env) (A : Nat) (F : Family) (zero : α) (junk : Nat → α) (wb : Bool) (c : Nat) (S : Type) (f : SCallable S α c) (s : S) (base n : Nat)

/-- The type of the state of the callable. -/
def AnyCall.State : AnyCall α → Type
  | .elements a => a.State
  | .structs _ _ _ _ _ _ _ S .. => S

/-- The state at the beginning. -/
def AnyCall.init : (x : AnyCall α) → x.State
  | .elements a => a.init
  | .structs _ _ _ _ _ _ _ _ _ s .. => s

/-- The accesses and invocations of the call. -/
def AnyCall.program : (x : AnyCall α) → Outcome (List (Instr x.State α))
  | .elements a => a.program
  | .structs e _ F zero junk wb _ _ f _ base n => forEachStructProgram e F zero junk wb f base n

/-- The state of the callable and the memory after the call if nothing else happens: the models of the algorithms. -/
def AnyCall.alone (mem : List α) : (x : AnyCall α) → Outcome (x.State × List α)
  | .elements a => a.alone mem
  | .structs e _ F zero junk wb c _ f s base n => do
    let r ← ForEachStruct.forEach e F zero junk wb f s (slice mem base (n * c))
    .ok (r.1, writeAt mem base r.2)

/-- `a` is the place of an element, or of a member of a struct, of a range that the call reads. -/
def AnyCall.Reads (a : Nat) : AnyCall α → Prop
  | .elements x => x.Reads a
  | .structs _ _ _ _ _ _ c _ _ _ base n => base ≤ a ∧ a < base + n * c

/-- `a` is the place of an element, or of a member of a struct, of a range that the call may write. -/
def AnyCall.Writes (a : Nat) : AnyCall α → Prop
  | .elements x => x.Writes a
  | .structs _ _ _ _ _ wb c _ _ _ base n => wb = true ∧ base ≤ a ∧ a < base + n * c

/-- No call writes what another one reads or writes. -/
def IndependentCalls {ι : Type} (calls : ι → AnyCall α) : Prop :=
  ∀ i j, i ≠ j → ∀ a, (calls i).Writes a → ¬ (calls j).Reads a ∧ ¬ (calls j).Writes a

/-- The preconditions of the call, as in the theorems about a single call: they mention no other call. -/
def AnyCall.Ok (mem : List α) : AnyCall α → Prop
  | .elements a => a.Ok mem
  | .structs e A F _ _ _ c _ _ _ base n => StructRange e A ∧ F.WF c ∧ e.constEval = false ∧ e.strictPtr = false ∧ e.Fits n ∧
      (e.pol.assumeMatchingSize = true → e.size ∣ n) ∧ base + n * c ≤ mem.length

/-- All threads at the beginning of their calls. -/
def startCalls {ι : Type} (calls : ι → AnyCall α) (P : ∀ i, List (Instr (calls i).State α)) (mem : List α) :
    Config ι (fun i => (calls i).State) α :=
  ⟨P, fun i => ⟨(calls i).init, [], []⟩, mem⟩

/-- The calls one after the other. -/
def callsInSequence {ι : Type} (calls : ι → AnyCall α) : List ι → List α → Outcome (List α)
  | [], mem => .ok mem
  | i :: is, mem => do
    let r ← (calls i).alone mem
    callsInSequence calls is r.2

end Vir.Threads
