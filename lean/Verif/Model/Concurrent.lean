import Verif.Model.ForEachGen
import Verif.Model.TransformGen

/-!
# Algorithms as programs of element accesses, and threads that run them

The control flow of `for_each` and `transform` does not depend on the data. So the algorithms of `Verif/Model/ForEachGen.lean` and
`Verif/Model/TransformGen.lean`, with an invocation that records what it would do, yield the sequence of element accesses and
invocations of the call. Threads execute such sequences one access at a time, in any interleaving.

Simplifications: loads and stores of simd objects access their elements in order, the invocations of one unrolled iteration of `transform`
are evaluated in the order of their indices, and callables access no memory but their own state and their arguments. The interleaving
semantics stands for the C++ memory model, under which programs without data races behave as if interleaved; that there are none is
part of the theorems.
-/

namespace Vir.Threads
open ForEach

variable {σ α : Type}

/-- What a thread does next: read an element, invoke the callable on the elements read so far, write the next element of the results. The threads call the functions of `/repo/vir/simd_execution.h` 710-806, 1110-1172. -/
inductive Instr (σ α : Type) where
  | load (a : Nat)
  | call (f : σ → List α → σ × List α)
  | store (a : Nat)

/-- The objects of a thread: the state of its callable, the elements read for the next invocation, the results not yet written. The threads call the functions of `/repo/vir/simd_execution.h` 710-806, 1110-1172. -/
structure Local (σ α : Type) where
  st : σ
  args : List α := []
  res : List α := []

/-- One step of a thread. The threads call the functions of `/repo/vir/simd_execution.h` 710-806, 1110-1172. -/
def step : Instr σ α → Local σ α → List α → Outcome (Local σ α × List α)
  | .load a, l, mem => match mem[a]? with
    | some x => .ok (⟨l.st, l.args ++ [x], l.res⟩, mem)
    | none => .ub .oob
  | .call f, l, mem => .ok (⟨(f l.st l.args).1, [], l.res ++ (f l.st l.args).2⟩, mem)
  | .store a, l, mem => match l.res with
    | [] => .ub .uninit
    | x :: xs => if a < mem.length then .ok (⟨l.st, l.args, xs⟩, mem.set a x) else .ub .oob

/-- All steps of a thread that is alone. The threads call the functions of `/repo/vir/simd_execution.h` 710-806, 1110-1172. -/
def exec : List (Instr σ α) → Local σ α → List α → Outcome (Local σ α × List α)
  | [], l, mem => .ok (l, mem)
  | i :: is, l, mem => do
    let r ← step i l mem
    exec is r.1 r.2

/-- Threads `ι`, each with the rest of its program and its objects, and one memory. The threads call the functions of `/repo/vir/simd_execution.h` 710-806, 1110-1172. -/
structure Config (ι : Type) (σ : ι → Type) (α : Type) where
  prog : ∀ i, List (Instr (σ i) α)
  loc : ∀ i, Local (σ i) α
  mem : List α

variable {ι : Type} [DecidableEq ι]

/-- A family with one member replaced. The threads call the functions of `/repo/vir/simd_execution.h` 710-806, 1110-1172. -/
def update {β : ι → Type} (f : ∀ i, β i) (i : ι) (x : β i) : ∀ j, β j := fun j => if h : i = j then h ▸ x else f j

/-- Thread `i` makes a step; a finished thread does nothing. The threads call the functions of `/repo/vir/simd_execution.h` 710-806, 1110-1172. -/
def tick {σ : ι → Type} (i : ι) (c : Config ι σ α) : Outcome (Config ι σ α) :=
  match c.prog i with
  | [] => .ok c
  | x :: rest => do
    let r ← step x (c.loc i) c.mem
    .ok ⟨update c.prog i rest, update c.loc i r.1, r.2⟩

/-- The threads make steps in the order of a schedule. The threads call the functions of `/repo/vir/simd_execution.h` 710-806, 1110-1172. -/
def runSchedule {σ : ι → Type} : List ι → Config ι σ α → Outcome (Config ι σ α)
  | [], c => .ok c
  | i :: is, c => do
    let c ← tick i c
    runSchedule is c

/-- `k` chunks of `w` elements. The chunks of `/repo/vir/simd_execution.h` 55-59. -/
def cut (w : Nat) : Nat → List α → List (List α)
  | 0, _ => []
  | k + 1, xs => xs.take w :: cut w k (xs.drop w)

/-- The accesses of `w` elements at `a`. `/repo/vir/simd_execution.h` 55-59, 622-623. -/
def each (mk : Nat → Instr σ α) (a w : Nat) : List (Instr σ α) := (List.range w).map fun i => mk (a + i)

/-- The accesses of `k` chunks of a range of `n` elements at arena offset `base`: the loads (`/repo/vir/simd_execution.h` 58) or the
stores (57) of `simd_load_and_invoke`. -/
def accesses (e : Env) (mk : Nat → Instr σ α) (base n : Nat) (aligned : Bool) (w : Nat) : Nat → Int → Outcome (List (Instr σ α))
  | 0, _ => .ok []
  | k + 1, pos =>
    if !inRange n pos w then .ub .oob
    else if aligned && !alignedAt e pos w then .ub .misaligned
    else do
      let r ← accesses e mk base n aligned w k (pos + w)
      .ok (each mk (base + pos.toNat) w ++ r)

/-- `simd_load_and_invoke` (`/repo/vir/simd_execution.h` 48-60) as a sequence of steps. -/
def emitInvoke (e : Env) (wb : Bool) (f : Callable σ α) (base n : Nat) : ForEach.Inv (List (Instr σ α)) := fun w aligned k pos acc => do
  let ls ← accesses e .load base n aligned w k pos
  let fn : σ → List α → σ × List α := fun s xs =>
    let r := f.call s (cut w k xs)
    (r.1, if wb then r.2.flatten else [])
  if wb then do
    let ss ← accesses e .store base n aligned w k pos
    .ok (acc ++ (ls ++ .call fn :: ss))
  else .ok (acc ++ (ls ++ [.call fn]))

/-- The steps of `for_each` (`/repo/vir/simd_execution.h` 1110-1172) on the `n` elements at arena offset `base`. -/
def forEachProgram (e : Env) (wb : Bool) (f : Callable σ α) (base n : Nat) : Outcome (List (Instr σ α)) :=
  forEachG e (emitInvoke e wb f base n) n []

/-- A load of `w` elements of an input range (`/repo/vir/simd_execution.h` 623). -/
def emitIn (t : TEnv) (w base : Nat) (pos : Int) : Outcome (List (Instr σ α)) :=
  if inRange t.n pos w then .ok (each .load (base + pos.toNat) w) else .ub .oob

/-- The pack expansion over `first2...` (`/repo/vir/simd_execution.h` 623). -/
def emitIns (t : TEnv) (w : Nat) (pos : Int) : List Nat → Outcome (List (Instr σ α))
  | [] => .ok []
  | b :: bs => do
    let c ← emitIn t w b pos
    let cs ← emitIns t w pos bs
    .ok (c ++ cs)

/-- The loads and invocations of `k` chunks (`/repo/vir/simd_execution.h` 618-624, 777-779). -/
def emitLoads (t : TEnv) (op : VecOp α α) (w : Nat) : Nat → Int → Int → Outcome (List (Instr Unit α))
  | 0, _, _ => .ok []
  | k + 1, p1, p2 =>
    match t.ins with
    | [] => .ub .staticAssert
    | b1 :: bs => do
      let c ← emitIn t w b1 p1
      let cs ← emitIns t w p2 bs
      let r ← emitLoads t op w k (p1 + w) (p2 + w)
      .ok (c ++ cs ++ .call (fun s xs => (s, op.call (cut w (bs.length + 1) xs))) :: r)

/-- The processing of `k` chunks (`/repo/vir/simd_execution.h` 657-658, 689-690, 698-700, 744-745, 777-782, 790-791). -/
def emitChunks (t : TEnv) (op : VecOp α α) : Transform.TInv (List (Instr Unit α)) := fun w aligned k p1 d p2 acc => do
  let ls ← emitLoads t op w k p1 p2
  let ss ← accesses t.e .store t.out t.n aligned w k d
  .ok (acc ++ (ls ++ ss))

/-- The steps of `transform` (`/repo/vir/simd_execution.h` 710-806). -/
def transformProgram (t : TEnv) (op : VecOp α α) : Outcome (List (Instr Unit α)) := do
  let r ← Transform.transformG t (emitChunks t op) []
  .ok r.2

end Vir.Threads
