import Verif.Model.ForEachStruct
import Verif.Model.Throwing

/-!
# `vir::for_each` on an array of structs, with callables that may throw

See `Verif/Model/ForEachStruct.lean` for the simdized structs and `Verif/Model/Throwing.lean` for exceptions.
-/

namespace Vir.ForEachStruct
open Vir.ForEach

variable {σ α : Type}

/-- A callable with state that takes simdized structs of the same width and may throw (`none`). `fun` in `/repo/vir/simd_execution.h` 48-60. -/
structure STCallable (σ α : Type) (c : Nat) where
  call : σ → List (List (List α)) → σ × Option (List (List (List α)))
  /-- the types: as many simdized structs as before, `c` members each, and no width changes -/
  shape : ∀ s vs w r, (∀ v ∈ vs, v.length = c ∧ ∀ m ∈ v, m.length = w) → (call s vs).2 = some r →
    r.length = vs.length ∧ ∀ v ∈ r, v.length = c ∧ ∀ m ∈ v, m.length = w

/-- `simd_load_and_invoke<V, write_back>` (`/repo/vir/simd_execution.h` 48-60) for a simdized struct `V`: if `std::invoke(fun, chunks...)`
throws, the `copy_to` after it are not executed. -/
def invokeT {c : Nat} (F : Family) (zero : α) (junk : Nat → α) (wb : Bool) (f : STCallable σ α c) : ForEach.Inv (TState σ α) :=
  fun w _aligned k pos st =>
    match st with
    | .inr x => .ok (.inr x)
    | .inl (s, mem) => do
      let chunks ← loadAll F zero junk mem w k pos
      match f.call s chunks with
      | (s', none) => .ok (.inr (s', mem))
      | (s', some r) =>
        if wb then do
          let mem ← storeAll F junk w r pos mem
          .ok (.inl (s', mem))
        else .ok (.inl (s', mem))

/-- `vir::for_each` (`/repo/vir/simd_execution.h` 1110-1172) on an array of structs with `c` members each. -/
def forEachT {c : Nat} (e : Env) (F : Family) (zero : α) (junk : Nat → α) (wb : Bool) (f : STCallable σ α c) (s : σ)
    (mem : List α) : Outcome (TState σ α) :=
  forEachG e (invokeT F zero junk wb f) (mem.length / c) (.inl (s, mem))

end Vir.ForEachStruct
