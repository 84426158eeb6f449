import Verif.Model.ForEach

/-!
# Specification of a chunked traversal

What it means to run a callable over a range chunk by chunk, without reference to how `for_each` finds the
chunks.
-/

namespace Vir.Spec

variable {σ α : Type}

/-- One invocation of the callable with `k` simd arguments of `w` lanes each. -/
structure Call where
  w : Nat
  k : Nat
deriving DecidableEq, Repr

/-- Number of elements consumed by one invocation. -/
def Call.elems (c : Call) : Nat := c.w * c.k

/-- Number of elements consumed by a sequence of invocations. -/
def elems (cs : List Call) : Nat := (cs.map Call.elems).sum

/-- The first `k` chunks of `w` consecutive elements of `xs`. -/
def chunks (w : Nat) : Nat → List α → List (List α)
  | 0, _ => []
  | k + 1, xs => xs.take w :: chunks w k (xs.drop w)

/-- Run the invocations `cs` one after the other over consecutive, disjoint pieces of `xs`, starting at its
first element. The result is the final state of the callable and the final contents of `xs`: with write-back
each piece is replaced by what the callable left in its arguments, without write-back it is unchanged. -/
def run (f : Callable σ α) (wb : Bool) : List Call → σ → List α → σ × List α
  | [], s, xs => (s, xs)
  | c :: cs, s, xs =>
    let r := f.call s (chunks c.w c.k xs)
    let rest := run f wb cs r.1 (xs.drop c.elems)
    (rest.1, (if wb then r.2.flatten else xs.take c.elems) ++ rest.2)

/-- What an observer sees of one invocation: the simd arguments passed in and what the callable left in
them. -/
structure Event (α : Type) where
  args : List (List α)
  results : List (List α)
deriving DecidableEq, Repr

/-- The callable `f`, instrumented to record all its invocations. -/
def logged (f : Callable σ α) : Callable (σ × List (Event α)) α where
  call s args := (((f.call s.1 args).1, s.2 ++ [⟨args, (f.call s.1 args).2⟩]), (f.call s.1 args).2)
  shape s args := f.shape s.1 args

/-- The lanes of all arguments of all recorded invocations, in order. -/
def visited (log : List (Event α)) : List α := (log.map fun ev => ev.args.flatten).flatten

/-- The lanes the callable left in its arguments, in order. -/
def produced (log : List (Event α)) : List α := (log.map fun ev => ev.results.flatten).flatten

/-- The widths of the arguments of each recorded invocation. -/
def shapes (log : List (Event α)) : List (List Nat) := log.map fun ev => ev.args.map List.length

/-- Prerequisite of `prefer_aligned`: if the full-width simd type can be loaded with over-alignment, then the
range is empty or has an aligned position at or before its end. -/
def ReachesAlignment (e : Env) (n : Nat) : Prop :=
  e.pol.prefersAligned = true → 1 < e.size → e.al e.size ∣ e.size * e.sz → e.sz < e.al e.size →
    n = 0 ∨ ∃ k, k ≤ n ∧ e.al e.size ∣ e.addr + k * e.sz

end Vir.Spec
