import Verif.Model.TransformReduce

/-!
# `vir::transform_reduce` with operations that have side effects and may throw

The definitions follow those of `Verif/Model/TransformReduce.lean` (same lines of `/repo/vir/simd_execution.h`), but
`transform_op`, `reduce_op` and the horizontal `reduce` of the simd implementation read and change an external state and may
throw. `transform_reduce` catches nothing: an exception ends the algorithm. `transformReduceE_pure` in
`Verif/Props/ReduceEffects.lean` shows that without effects the two models agree.
-/

namespace Vir

/-- A piece of C++ with an external state: undefined behaviour or trap, or a new state together with a value (`none`: an
exception has been thrown). The statements of `/repo/vir/simd_execution.h` 808-1088. -/
def Eff (σ A : Type) : Type := σ → Outcome (σ × Option A)

namespace Eff

/-- Sequencing: an exception skips the rest. The order of the statements in `/repo/vir/simd_execution.h` 808-1088. -/
def bind {σ A B : Type} (m : Eff σ A) (f : A → Eff σ B) : Eff σ B := fun s =>
  match m s with
  | .ok (s', some a) => f a s'
  | .ok (s', none) => .ok (s', none)
  | .ub r => .ub r
  | .trap => .trap

instance {σ : Type} : Monad (Eff σ) where
  pure a := fun s => .ok (s, some a)
  bind := bind

/-- Code without effects. The statements of `/repo/vir/simd_execution.h` 808-1088. -/
def lift {σ A : Type} (x : Outcome A) : Eff σ A := fun s => do
  let a ← x
  .ok (s, some a)

/-- An invocation of a user's operation. `/repo/vir/simd_execution.h` 622-623, 631-633, 827, 853, 1026, 1059. -/
def invoke {σ A : Type} (f : σ → σ × Option A) : Eff σ A := fun s => .ok (f s)

end Eff

/-- The operations passed to `transform_reduce`, and the horizontal reductions the simd implementation builds from
`reduce_op`. The callables of `/repo/vir/simd_execution.h` 939-943. -/
structure ROps (σ α β τ : Type) where
  /-- `transform_op` -/
  trans : σ → List (List α) → σ × Option (List β)
  /-- `reduce_op` on simd objects of the aggregation type -/
  red : σ → List τ → List τ → σ × Option (List τ)
  /-- `reduce(simd<β>, reduce_op)` -/
  hredB : σ → List β → σ × Option β
  /-- `reduce(simd<τ>, reduce_op)` -/
  hredT : σ → List τ → σ × Option τ
  /-- the implicit conversion from `β` to `τ` -/
  cvt : β → τ
  transShape : ∀ s w args r, args ≠ [] → (∀ a ∈ args, a.length = w) → (trans s args).2 = some r → r.length = w
  redShape : ∀ s x y r, x.length = y.length → (red s x y).2 = some r → r.length = x.length

namespace TransformReduce
open ForEach Transform Eff

variable {σ α β τ : Type}

/-- `simdized_load_flag1_and_invoke` (`/repo/vir/simd_execution.h` 626-634). -/
def loadInvokeE (t : TEnv) (ops : ROps σ α β τ) (mem : List α) (aligned : Bool) (w : Nat) (p1 p2 : Int) : Eff σ (List β) :=
  match t.ins with
  | [] => lift (.ub .staticAssert)
  | b1 :: bs => do
    let c ← lift (if aligned && !alignedAt t.e p1 w then .ub .misaligned else loadIn t mem w b1 p1)
    let cs ← lift (loadIns t mem w p2 bs)
    invoke fun s => ops.trans s (c :: cs)

/-- Loads `w` elements from the position of `it0` and of `its...` and invokes `transform_op` on them: the arguments are the flag, the
width and the two positions. `/repo/vir/simd_execution.h` 626-634. -/
abbrev Loader (σ β : Type) := Bool → Nat → Int → Int → Eff σ (List β)

/-- `std::invoke(reduce_op, x, y)`. The calls of `reduce_op` in `/repo/vir/simd_execution.h` 827, 853, 858, 861, 867, 880, 909, 912, 918, 975, 1026, 1044, 1059, 1064, 1066, 1072, 1074. -/
def redE (ops : ROps σ α β τ) (x y : List τ) : Eff σ (List τ) := invoke fun s => ops.red s x y

/-- `reduce(v, reduce_op)` for elements of type `τ`. `reduce(…, reduce_op)` in `/repo/vir/simd_execution.h` 861, 912, 1066, 1074. -/
def hredTE (ops : ROps σ α β τ) (v : List τ) : Eff σ τ := invoke fun s => ops.hredT s v

/-- `reduce(v, reduce_op)` for elements of type `β`. `reduce(…, reduce_op)` in `/repo/vir/simd_execution.h` 823-826. -/
def hredBE (ops : ROps σ α β τ) (v : List β) : Eff σ β := invoke fun s => ops.hredB s v

/-- `std::invoke(reduce_op, acc1, y)[0]` for one-lane objects. `/repo/vir/simd_execution.h` 827. -/
def red1E (ops : ROps σ α β τ) (acc1 : τ) (y : List τ) : Eff σ τ := do
  let r ← redE ops [acc1] y
  lift (lane0 r)

/-- `simd_transform_reduce_prologue<size, max_size>` (`/repo/vir/simd_execution.h` 808-834) for `size == 2^k`. -/
def prologueRecE (t : TEnv) (ops : ROps σ α β τ) (ld : Loader σ β) (max toProcess k : Nat) (acc1 : τ) : Eff σ τ :=
  if !hasSingleBit max then lift (.ub .staticAssert)
  else do
    let acc1 ←
      if (toProcess &&& 2 ^ k) ≠ 0 then do
        let offset : Int := (toProcess &&& (2 ^ k - 1) : Nat)
        let v ← ld true (2 ^ k) offset offset
        let x ← hredBE ops v
        red1E ops acc1 [ops.cvt x]
      else pure acc1
    if _h : 2 ^ k < max then prologueRecE t ops ld max toProcess (k + 1) acc1
    else pure acc1
termination_by max - 2 ^ k
decreasing_by
  have : 0 < 2 ^ k := Nat.two_pow_pos k
  rw [Nat.pow_succ]; omega

/-- `simd_transform_reduce_epilogue(acc1, acc, first1, leftover, ...)` (`/repo/vir/simd_execution.h` 836-886) for
`A::size() == 2^k`. -/
def epilogueAccE (t : TEnv) (ops : ROps σ α β τ) (ld : Loader σ β) (aligned : Bool) (leftover : Nat) :
    Nat → τ → List τ → Int → Int → Eff σ τ
  | 0, acc1, acc, p1, p2 =>
    if (leftover &&& 1) ≠ 0 then do
      let v ← ld aligned 1 p1 p2
      let acc ← redE ops acc (v.map ops.cvt)
      red1E ops acc1 acc
    else lift (.ub .unreachable)
  | k + 1, acc1, acc, p1, p2 =>
    let w := 2 ^ (k + 1)
    if (leftover &&& w) ≠ 0 then do
      let v ← ld aligned w p1 p2
      let acc ← redE ops acc (v.map ops.cvt)
      if (leftover &&& (w - 1)) = 0 then do
        let x ← hredTE ops acc
        red1E ops acc1 [x]
      else do
        let acc2 ← redE ops (acc.take (w / 2)) (acc.drop (w / 2))
        epilogueAccE t ops ld aligned leftover k acc1 acc2 (p1 + w) (p2 + w)
    else if (leftover &&& (w - 1)) = 0 then lift (.ub .unreachable)
    else do
      let acc2 ← redE ops (acc.take (w / 2)) (acc.drop (w / 2))
      epilogueAccE t ops ld aligned leftover k acc1 acc2 p1 p2

/-- `simd_transform_reduce_epilogue<size>(acc1, first1, leftover, ...)` (`/repo/vir/simd_execution.h` 888-934) for
`size == 2^k`. -/
def epilogueE (t : TEnv) (ops : ROps σ α β τ) (ld : Loader σ β) (aligned : Bool) (leftover : Nat) :
    Nat → τ → Int → Int → Eff σ τ
  | 0, acc1, p1, p2 =>
    if (leftover &&& 1) ≠ 0 then do
      let v ← ld aligned 1 p1 p2
      red1E ops acc1 (v.map ops.cvt)
    else lift (.ub .unreachable)
  | k + 1, acc1, p1, p2 =>
    let w := 2 ^ (k + 1)
    if (leftover &&& w) ≠ 0 then do
      let v ← ld aligned w p1 p2
      let acc := v.map ops.cvt
      if (leftover &&& (w - 1)) = 0 then do
        let x ← hredTE ops acc
        red1E ops acc1 [x]
      else do
        let acc2 ← redE ops (acc.take (w / 2)) (acc.drop (w / 2))
        epilogueAccE t ops ld aligned leftover k acc1 acc2 (p1 + w) (p2 + w)
    else if (leftover &&& (w - 1)) = 0 then lift (.ub .unreachable)
    else epilogueE t ops ld aligned leftover k acc1 p1 p2

/-- The initial values of the accumulators (`/repo/vir/simd_execution.h` 1007-1018); the elements of a braced list are
evaluated from left to right. -/
def unrolledInitE (t : TEnv) (ops : ROps σ α β τ) (ld : Loader σ β) (aligned : Bool) (w : Nat) :
    Nat → Int → Int → Eff σ (List (List τ))
  | 0, _, _ => pure []
  | k + 1, p1, p2 => do
    let v ← ld aligned w p1 p2
    let vs ← unrolledInitE t ops ld aligned w k (p1 + w) (p2 + w)
    pure (v.map ops.cvt :: vs)

/-- The body of the unrolled loop (`/repo/vir/simd_execution.h` 1023-1032), a fold over the comma operator. -/
def unrolledBodyE (t : TEnv) (ops : ROps σ α β τ) (ld : Loader σ β) (aligned : Bool) (w : Nat) :
    List (List τ) → Int → Int → Eff σ (List (List τ))
  | [], _, _ => pure []
  | a :: as, p1, p2 => do
    let v ← ld aligned w p1 p2
    let a ← redE ops a (v.map ops.cvt)
    let as ← unrolledBodyE t ops ld aligned w as (p1 + w) (p2 + w)
    pure (a :: as)

/-- `if constexpr (i + j < U) acc[i] = reduce_op(acc[i], acc[i+j])` (`/repo/vir/simd_execution.h` 1041-1045). -/
def treeInnerE (ops : ROps σ α β τ) (U j : Nat) (acc : List (List τ)) (ii : Nat) : Eff σ (List (List τ)) :=
  let i := ii * 2 * j
  if i + j < U then
    match acc[i]?, acc[i + j]? with
    | some x, some y => do
      let z ← redE ops x y
      pure (acc.set i z)
    | _, _ => pure acc
  else pure acc

/-- The tree reduction (`/repo/vir/simd_execution.h` 1037-1046). -/
def treeReduceE (ops : ROps σ α β τ) (U : Nat) (acc : List (List τ)) : Eff σ (List (List τ)) :=
  (List.range (stdBitWidth (U - 1))).foldlM
    (fun acc outer => (List.range (U / 2)).foldlM (treeInnerE ops U (2 ^ outer)) acc) acc

/-- `for (; cond(first); first += step) body(first)`; the first argument bounds the number of iterations. The loops of `/repo/vir/simd_execution.h` 972, 1021-1036, 1056-1062. -/
def whileE {S : Type} (cond : Int → Bool) (step : Nat) (body : Int → S → Eff σ S) : Nat → Int → S → Eff σ (Int × S)
  | 0, _, _ => lift (.ub .diverge)
  | fuel + 1, pos, st =>
    if cond pos then do
      let st ← body pos st
      whileE cond step body fuel (pos + step) st
    else pure (pos, st)

/-- The single load (`/repo/vir/simd_execution.h` 1050-1054). -/
def firstLoadE (t : TEnv) (ops : ROps σ α β τ) (ld : Loader σ β) (first1 first2 : Int) : Eff σ (AccSt τ) := do
  let v ← ld (useAligned t.e) t.e.size first1 first2
  pure (first1 + t.e.size, first2 + t.e.size, v.map ops.cvt)

/-- The lambda initialising `acc` (`/repo/vir/simd_execution.h` 999-1055). -/
def initAccE (t : TEnv) (ops : ROps σ α β τ) (ld : Loader σ β) (first1 first2 : Int) : Eff σ (AccSt τ) :=
  if t.e.pol.unrollBy > 1 then do
    let U := t.e.pol.unrollBy.toNat
    let step := t.e.size * U
    let unrolledLast ← lift (subPtr t.e t.n step)
    let next ← lift (addPtr t.e t.n first1 step)
    if next ≤ unrolledLast then do
      let acc ← unrolledInitE t ops ld (useAligned t.e) t.e.size U first1 first2
      let body := fun (first1 : Int) (st : Int × List (List τ)) => do
        let acc ← unrolledBodyE t ops ld (useAligned t.e) t.e.size st.2 first1 st.1
        pure (st.1 + (step : Int), acc)
      let st ← body (first1 + step) (first2 + step, acc)
      let (first1, st) ← whileE (fun first1 => decide (first1 ≤ unrolledLast)) step body (t.n + 1)
        (first1 + step + step) st
      let accs ← treeReduceE ops U st.2
      let a ← lift (acc0 accs)
      pure (first1, st.1, a)
    else firstLoadE t ops ld first1 first2
  else firstLoadE t ops ld first1 first2

/-- The code after the main loop (`/repo/vir/simd_execution.h` 1063-1077). -/
def finishE (t : TEnv) (ops : ROps σ α β τ) (ld : Loader σ β) (leftover : Nat) (acc1 : τ) (st : AccSt τ) : Eff σ τ :=
  let size := t.e.size
  let loSize := stdBitCeil size / 2
  let hiSize := size - loSize
  if size = 1 then red1E ops acc1 st.2.2
  else if t.e.pol.assumeMatchingSize || decide (leftover = 0) then do
    let x ← hredTE ops st.2.2
    red1E ops acc1 [x]
  else
    let lo := st.2.2.take loSize
    let hi := st.2.2.drop loSize
    let k := Nat.log2 loSize
    if loSize = hiSize then do
      let acc2 ← redE ops lo hi
      epilogueAccE t ops ld (useAligned t.e) leftover k acc1 acc2 st.1 st.2.1
    else do
      let x ← hredTE ops hi
      let acc1 ← red1E ops acc1 [x]
      epilogueAccE t ops ld (useAligned t.e) leftover k acc1 lo st.1 st.2.1

/-- The alignment prologue, run inside `prologue::operator()` (`/repo/vir/simd_execution.h` 981-987). After an exception
nothing more happens (the model still advances the iterators, which has no effect). -/
def proE (t : TEnv) (ops : ROps σ α β τ) (ld : Loader σ β) (max tp : Nat) (x : σ × Option τ) : Outcome (σ × Option τ) :=
  match x with
  | (s, none) => .ok (s, none)
  | (s, some acc1) => prologueRecE t ops ld max tp 0 acc1 s

/-- The code after the prologue (`/repo/vir/simd_execution.h` 981-1087). -/
def restE (t : TEnv) (ops : ROps σ α β τ) (ld : Loader σ β) (first : Int) (distance : Nat) (acc1 : τ) : Eff σ τ := do
  let size := t.e.size
  let last1 : Int := t.n
  let leftover := distance % size
  let loSize := stdBitCeil size / 2
  let simdLast ← lift (subPtr t.e last1 size)
  if t.e.pol.assumeMatchingSize || decide (first ≤ simdLast) then do
    let (first1, st) ← initAccE t ops ld first first
    let (first1, st) ← whileE
      (fun first1 => if t.e.pol.assumeMatchingSize then decide (first1 ≠ last1) else decide (first1 ≤ simdLast))
      size
      (fun first1 (st : Int × List τ) => do
        let v ← ld (useAligned t.e) size first1 st.1
        let acc ← redE ops st.2 (v.map ops.cvt)
        pure (st.1 + (size : Int), acc))
      (t.n + 1) first1 st
    finishE t ops ld leftover acc1 (first1, st)
  else if loSize > 0 then
    epilogueE t ops ld (useAligned t.e) leftover (Nat.log2 loSize) acc1 first first
  else lift (.ub .unreachable)

/-- `detail::transform_reduce` (`/repo/vir/simd_execution.h` 936-1088), for any way to load arguments and invoke `transform_op`. -/
def transformReduceL (t : TEnv) (ops : ROps σ α β τ) (ld : Loader σ β) (init : τ) : Eff σ τ := fun s =>
  let n := t.n
  let last1 : Int := n
  if n = 0 then .ok (s, some init)
  else if t.e.pol.assumeMatchingSize && n % t.e.size != 0 then .trap
  else if t.e.constEval then
    (do
      let (_, acc1) ← whileE (fun first1 => decide (first1 < last1)) 1
        (fun first1 acc1 => do
          let r ← ld false 1 first1 first1
          red1E ops acc1 (r.map ops.cvt)) (n + 1) 0 init
      pure acc1 : Eff σ τ) s
  else do
    let (first, distance, st) ← runPrologue t.e n (proE t ops ld) 0 (s, some init)
    match st with
    | (s, none) => .ok (s, none)
    | (s, some acc1) => restE t ops ld first distance acc1 s

/-- `detail::transform_reduce` (`/repo/vir/simd_execution.h` 936-1088). -/
def transformReduceE (t : TEnv) (ops : ROps σ α β τ) (mem : List α) (init : τ) : Eff σ τ :=
  transformReduceL t ops (loadInvokeE t ops mem) init

end TransformReduce
end Vir
