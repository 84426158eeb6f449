import Verif.Model.Concurrent
import Verif.Spec.Transform
import Verif.Spec.Calls
import Verif.Spec.Platform

/-!
# Calls that run concurrently
-/

namespace Vir.Threads
open Spec

variable {σ α : Type}

/-- The addresses that a program reads, in order. -/
def loadsOf : List (Instr σ α) → List Nat
  | [] => []
  | .load a :: p => a :: loadsOf p
  | .call _ :: p => loadsOf p
  | .store _ :: p => loadsOf p

/-- The addresses that a program writes, in order. -/
def storesOf : List (Instr σ α) → List Nat
  | [] => []
  | .load _ :: p => storesOf p
  | .call _ :: p => storesOf p
  | .store a :: p => a :: storesOf p

/-- A call of `for_each` on `n` elements at `base`, with or without write-back, whose callable has the state `s`; or a call of
`transform`. -/
inductive Alg (α : Type) : Type 1 where
  | forEach (e : Env) (wb : Bool) (S : Type) (f : Callable S α) (s : S) (base n : Nat)
  | transform (t : TEnv) (op : VecOp α α)

/-- The type of the state of the callable. -/
def Alg.State : Alg α → Type
  | .forEach _ _ S .. => S
  | .transform .. => Unit

/-- The state at the beginning. -/
def Alg.init : (c : Alg α) → c.State
  | .forEach _ _ _ _ s .. => s
  | .transform .. => ()

/-- The element accesses and invocations of the call. -/
def Alg.program : (c : Alg α) → Outcome (List (Instr c.State α))
  | .forEach e wb _ f _ base n => forEachProgram e wb f base n
  | .transform t op => transformProgram t op

/-- The state of the callable and the memory after the call if nothing else happens: the models of the two algorithms. -/
def Alg.alone (mem : List α) : (c : Alg α) → Outcome (c.State × List α)
  | .forEach e wb _ f s base n => do
    let r ← Vir.ForEach.forEach e wb f s (slice mem base n)
    .ok (r.1, writeAt mem base r.2)
  | .transform t op => do
    let r ← Vir.Transform.transform t op mem
    .ok ((), r.2)

/-- `a` is an element of a range that the call reads. -/
def Alg.Reads (a : Nat) : Alg α → Prop
  | .forEach _ _ _ _ _ base n => base ≤ a ∧ a < base + n
  | .transform t _ => ∃ b ∈ t.ins, b ≤ a ∧ a < b + t.n

/-- `a` is an element of a range that the call may write. -/
def Alg.Writes (a : Nat) : Alg α → Prop
  | .forEach _ wb _ _ _ base n => wb = true ∧ base ≤ a ∧ a < base + n
  | .transform t _ => t.out ≤ a ∧ a < t.out + t.n

/-- No call writes an element that another one reads or writes. -/
def Independent {ι : Type} (calls : ι → Alg α) : Prop :=
  ∀ i j, i ≠ j → ∀ a, (calls i).Writes a → ¬ (calls j).Reads a ∧ ¬ (calls j).Writes a

/-- The preconditions of the call, as in the theorems about a single call: they mention no other call. -/
def Alg.Ok (mem : List α) : Alg α → Prop
  | .forEach e _ _ _ _ base n => e.WF ∧ e.constEval = false ∧ e.strictPtr = false ∧ e.Fits n ∧ ReachesAlignment e n ∧
      (e.pol.assumeMatchingSize = true → e.size ∣ n) ∧ base + n ≤ mem.length
  | .transform t _ => t.e.WF ∧ t.e.constEval = false ∧ t.e.strictPtr = false ∧ t.e.Fits t.n ∧ ReachesAlignment t.e t.n ∧
      (t.e.pol.assumeMatchingSize = true → t.e.size ∣ t.n) ∧ RangesOk t mem

/-- All threads at the beginning of their calls. -/
def start {ι : Type} (calls : ι → Alg α) (P : ∀ i, List (Instr (calls i).State α)) (mem : List α) :
    Config ι (fun i => (calls i).State) α :=
  ⟨P, fun i => ⟨(calls i).init, [], []⟩, mem⟩

/-- The calls one after the other. -/
def inSequence {ι : Type} (calls : ι → Alg α) : List ι → List α → Outcome (List α)
  | [], mem => .ok mem
  | i :: is, mem => do
    let r ← (calls i).alone mem
    inSequence calls is r.2

/-- Two threads are about to access the same element, one of them to write it. -/
def Race {ι : Type} {σ : ι → Type} (c : Config ι σ α) : Prop :=
  ∃ i j a, i ≠ j ∧ (c.prog i).head? = some (.store a) ∧ ((c.prog j).head? = some (.load a) ∨ (c.prog j).head? = some (.store a))

end Vir.Threads
