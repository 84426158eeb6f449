import Verif.Model.ForEachGen
import Verif.Model.Simdize

/-!
# `vir::for_each` on an array of structs

`simdize<T, w>` of a struct `T` is a simdized struct (`/repo/vir/simdize.h` 330-355), so `for_each` loads, passes and stores those
(`/repo/vir/simd_execution.h` 48-60 with `V = simdize<T, w>`). The array is the flat sequence of the members of its structs, as in
`Verif/Model/Simdize.lean`; a simdized struct is the list of its member vectors.
-/

namespace Vir.ForEachStruct
open Vir.ForEach

variable {σ α : Type}

/-- The instantiations of the simdized struct: one for every width. `/repo/vir/simdize.h` 367-385, 516-540. -/
structure Family where
  /-- what decides the implementation of load and store for width `w` -/
  env : Nat → Simdize.SEnv
  /-- ... and of the `simd_permute` of a member vector -/
  perm : Nat → Permute.PEnv

/-- A callable with state that takes `k` simdized structs of the same width and leaves new contents in them. `fun` in `/repo/vir/simd_execution.h` 48-60. -/
structure SCallable (σ α : Type) (c : Nat) where
  call : σ → List (List (List α)) → σ × List (List (List α))
  /-- the types: as many simdized structs as before, `c` members each, and no width changes -/
  shape : ∀ s vs w, (∀ v ∈ vs, v.length = c ∧ ∀ m ∈ v, m.length = w) →
    (call s vs).2.length = vs.length ∧ ∀ v ∈ (call s vs).2, v.length = c ∧ ∀ m ∈ v, m.length = w

/-- `V(ptr, f)` for a simdized struct (`/repo/vir/simdize.h` 469-479, 907-912); the flags are not used. -/
def load (F : Family) (zero : α) (junk : Nat → α) (mem : List α) (w : Nat) (pos : Int) : Outcome (List (List α)) :=
  if pos < 0 then .ub .oob else Simdize.load (F.env w) (F.perm w) zero junk mem pos.toNat

/-- `v.copy_to(ptr, f)` for a simdized struct (`/repo/vir/simdize.h` 486-493, 925-929). -/
def store (F : Family) (junk : Nat → α) (mem : List α) (w : Nat) (pos : Int) (v : List (List α)) : Outcome (List α) :=
  if pos < 0 then .ub .oob else Simdize.store (F.env w) junk v mem pos.toNat

/-- The pack expansion `V(ptr + V::size() * Is, f)...` (`/repo/vir/simd_execution.h` 58). -/
def loadAll (F : Family) (zero : α) (junk : Nat → α) (mem : List α) (w : Nat) : Nat → Int → Outcome (List (List (List α)))
  | 0, _ => .ok []
  | k + 1, pos => do
    let c ← load F zero junk mem w pos
    let cs ← loadAll F zero junk mem w k (pos + w)
    .ok (c :: cs)

/-- The fold expression `(chunks.copy_to(ptr + V::size() * Is, f), ...)` (`/repo/vir/simd_execution.h` 57). -/
def storeAll (F : Family) (junk : Nat → α) (w : Nat) : List (List (List α)) → Int → List α → Outcome (List α)
  | [], _, mem => .ok mem
  | c :: cs, pos, mem => do
    let mem ← store F junk mem w pos c
    storeAll F junk w cs (pos + w) mem

/-- `simd_load_and_invoke<V, write_back>` (`/repo/vir/simd_execution.h` 48-60) for a simdized struct `V`. -/
def invoke {c : Nat} (F : Family) (zero : α) (junk : Nat → α) (wb : Bool) (f : SCallable σ α c) : ForEach.Inv (σ × List α) :=
  fun w _aligned k pos st => do
    let chunks ← loadAll F zero junk st.2 w k pos
    let r := f.call st.1 chunks
    if wb then do
      let mem ← storeAll F junk w r.2 pos st.2
      .ok (r.1, mem)
    else .ok (r.1, st.2)

/-- `vir::for_each` (`/repo/vir/simd_execution.h` 1110-1172) on an array of structs with `c` members each. -/
def forEach {c : Nat} (e : Env) (F : Family) (zero : α) (junk : Nat → α) (wb : Bool) (f : SCallable σ α c) (s : σ)
    (mem : List α) : Outcome (σ × List α) :=
  forEachG e (invoke F zero junk wb f) (mem.length / c) (s, mem)

end Vir.ForEachStruct
