import Verif.Model.ForEachGen
import Verif.Model.TransformGen

/-!
# `for_each` and `transform` with callables that may throw

`for_each` and `transform` do not catch exceptions: an exception thrown by the callable ends the algorithm and the memory stays as
it is at that moment. In the model an invocation that throws turns the state into `.inr`; all later invocations find that state and
do nothing. (In the program control leaves the algorithm. What the model still executes after a throw are loop conditions and
iterator arithmetic, which have no effects.)
-/

namespace Vir

/-- A callable with state that may throw: `none` instead of new contents of its arguments. The state it leaves behind survives. `fun`, `/repo/vir/simd_execution.h` 48-60. -/
structure TCallable (σ α : Type) where
  call : σ → List (List α) → σ × Option (List (List α))
  shape : ∀ s cs r, (call s cs).2 = some r → r.map List.length = cs.map List.length

/-- An operation with (external) state that may throw. `op`, `/repo/vir/simd_execution.h` 618-624. -/
structure TOp (σ α : Type) where
  call : σ → List (List α) → σ × Option (List α)
  shape : ∀ s w args r, args ≠ [] → (∀ a ∈ args, a.length = w) → (call s args).2 = some r → r.length = w

/-- `.inl`: running; `.inr`: an exception has been thrown. State of the callable and contents of memory. A run of `/repo/vir/simd_execution.h` 710-806, 1110-1172. -/
abbrev TState (σ α : Type) := (σ × List α) ⊕ (σ × List α)

variable {σ α : Type}

namespace ForEach

/-- `simd_load_and_invoke<V, write_back>` (`/repo/vir/simd_execution.h` 48-60): if `std::invoke(fun, chunks...)` throws, the
`copy_to` after it are not executed. -/
def invokeT (e : Env) (wb : Bool) (f : TCallable σ α) : Inv (TState σ α) := fun w aligned k pos st =>
  match st with
  | .inr x => .ok (.inr x)
  | .inl (s, mem) => do
    let chunks ← loadAll e mem aligned w k pos
    match f.call s chunks with
    | (s', none) => .ok (.inr (s', mem))
    | (s', some r) =>
      if wb then do
        let mem ← storeAll e aligned w r pos mem
        .ok (.inl (s', mem))
      else .ok (.inl (s', mem))

/-- `vir::for_each` (`/repo/vir/simd_execution.h` 1110-1172). -/
def forEachT (e : Env) (wb : Bool) (f : TCallable σ α) (s : σ) (mem : List α) : Outcome (TState σ α) :=
  forEachG e (invokeT e wb f) mem.length (.inl (s, mem))

end ForEach

namespace Transform
open ForEach

/-- The arguments of one invocation: `simdized_load_and_invoke`, `/repo/vir/simd_execution.h` 618-624. -/
def loadArgs (t : TEnv) (mem : List α) (w : Nat) (p1 p2 : Int) : Outcome (List (List α)) :=
  match t.ins with
  | [] => .ub .staticAssert
  | b1 :: bs => do
    let c ← loadIn t mem w b1 p1
    let cs ← loadIns t mem w p2 bs
    .ok (c :: cs)

/-- `fun0(cw<Is>)...` of `unroll2` (`/repo/vir/detail.h` 270-280): the evaluation order of these function arguments is
unspecified; the list contains the indices in the order of evaluation. An exception ends the evaluation. -/
def evalGroup (t : TEnv) (op : TOp σ α) (mem : List α) (w : Nat) (p1 p2 : Int) : List Nat → σ → Outcome (σ × Option (List (Nat × List α)))
  | [], s => .ok (s, some [])
  | i :: is, s => do
    let args ← loadArgs t mem w (p1 + ((i * w : Nat) : Int)) (p2 + ((i * w : Nat) : Int))
    match op.call s args with
    | (s', none) => .ok (s', none)
    | (s', some v) => do
      let r ← evalGroup t op mem w p1 p2 is s'
      .ok (r.1, r.2.map ((i, v) :: ·))

/-- `(fun1(cw<Is>, r0s), ...)` of `unroll2` (`/repo/vir/detail.h` 276): the results are stored in the order of the indices. -/
def storeGroup (t : TEnv) (aligned : Bool) (w : Nat) (rs : List (Nat × List α)) (d : Int) : List Nat → List α → Outcome (List α)
  | [], mem => .ok mem
  | i :: is, mem =>
    match rs.lookup i with
    | none => .ub .uninit
    | some v => do
      let mem ← storeOut t mem aligned w (d + ((i * w : Nat) : Int)) v
      storeGroup t aligned w rs d is mem

/-- One group of `k` chunks, `/repo/vir/simd_execution.h` 657-658, 689-690, 698-700, 744-745, 777-782, 790-791. `ord k` is the order in
which the compiler evaluates the `k` invocations. -/
def chunksT (t : TEnv) (ord : Nat → List Nat) (op : TOp σ α) : TInv (TState σ α) := fun w aligned k p1 d p2 st =>
  match st with
  | .inr x => .ok (.inr x)
  | .inl (s, mem) => do
    let r ← evalGroup t op mem w p1 p2 (ord k) s
    match r with
    | (s', none) => .ok (.inr (s', mem))
    | (s', some rs) => do
      let mem ← storeGroup t aligned w rs d (List.range k) mem
      .ok (.inl (s', mem))

/-- `detail::transform` (`/repo/vir/simd_execution.h` 710-806). -/
def transformT (t : TEnv) (ord : Nat → List Nat) (op : TOp σ α) (s : σ) (mem : List α) : Outcome (Int × TState σ α) :=
  transformG t (chunksT t ord op) (.inl (s, mem))

end Transform
end Vir
