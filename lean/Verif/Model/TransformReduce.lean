import Verif.Model.Transform

/-!
# Model of `vir::transform_reduce`

`/repo/vir/simd_execution.h`: `simdized_load_flag1_and_invoke` 626-634, `simd_transform_reduce_prologue`
808-834, `simd_transform_reduce_epilogue` 836-886 and 888-934, `detail::transform_reduce` 936-1088.

The input ranges live in one arena; `e` describes the first range (the one that is aligned by the prologue).
`α` is the element type of the inputs, `β` the one of the simd objects `transform_op` returns, `τ == T` the
aggregation type. Simplifications: one element type for all inputs; `reduce_op` is lane-wise and without side
effects, it is given by the functions it applies to every lane (`rB` for arguments of type `β`, `rT` for
arguments of type `τ`); mixed arguments are converted to `τ` first.
-/

namespace Vir

/-- The arguments of `transform_reduce`. The parameters of `/repo/vir/simd_execution.h` 939-952. -/
structure REnv (α β τ : Type) where
  /-- describes `first1`: `addr` is its address, `size` is the constant `size` (939-952), `sz` is `sizeof(T1)`,
  `al w` is `memory_alignment_v<simdize<T1, w>>` -/
  e : Env
  /-- the offsets of `first1, first2...` -/
  ins : List Nat
  /-- `last1 - first1` -/
  n : Nat
  /-- `transform_op` -/
  trans : VecOp α β
  /-- `reduce_op` on lanes of type `β` -/
  rB : β → β → β
  /-- `reduce_op` on lanes of type `τ` -/
  rT : τ → τ → τ
  /-- the implicit conversion from `β` to `τ` -/
  cvt : β → τ
  /-- `reduce(simd<β>, reduce_op)` of the simd implementation -/
  hredB : List β → β
  /-- `reduce(simd<τ>, reduce_op)` of the simd implementation -/
  hredT : List τ → τ

namespace TransformReduce
open ForEach Transform

variable {α β τ : Type}

/-- The input ranges as arguments of the load functions of `transform`. The iterators of `/repo/vir/simd_execution.h` 939-943. -/
def REnv.t (R : REnv α β τ) : TEnv := ⟨R.e, R.ins, 0, R.n⟩

/-- `iter_simdize_t<It0, w>(std::to_address(it0), flag0)`, `/repo/vir/simd_execution.h` 632. -/
def loadFlag1 (R : REnv α β τ) (mem : List α) (aligned : Bool) (w base : Nat) (pos : Int) :
    Outcome (List α) :=
  if aligned && !alignedAt R.e pos w then .ub .misaligned
  else loadIn (REnv.t R) mem w base pos

/-- `simdized_load_flag1_and_invoke(transform_op, cw<w>, flag0, it0, its...)`, `/repo/vir/simd_execution.h` 626-634; `it0` is at position
`p1`, all `its` are at position `p2`. -/
def loadFlag1AndInvoke (R : REnv α β τ) (mem : List α) (aligned : Bool) (w : Nat) (p1 p2 : Int) :
    Outcome (List β) :=
  match R.ins with
  | [] => .ub .staticAssert
  | b1 :: bs => do
    let c ← loadFlag1 R mem aligned w b1 p1
    let cs ← loadIns (REnv.t R) mem w p2 bs
    .ok (R.trans.call (c :: cs))

/-- `std::invoke(reduce_op, x, y)` for simd objects of type `τ`. The calls of `reduce_op` in `/repo/vir/simd_execution.h` 827, 853, 858, 861, 867, 880, 909, 912, 918, 975, 1026, 1044, 1059, 1064, 1066, 1072, 1074. -/
def vop (R : REnv α β τ) (x y : List τ) : List τ := List.zipWith R.rT x y

/-- `v[0]`. The `[0]` in `/repo/vir/simd_execution.h` 858, 861, 909, 912, 977, 1064, 1066. -/
def lane0 (v : List τ) : Outcome τ :=
  match v with
  | [] => .ub .oob
  | x :: _ => .ok x

/-- `simd_transform_reduce_prologue<size, max_size>`, `/repo/vir/simd_execution.h` 808-834, for `size == 2^k`. `first1` and `first2...` are
at position 0 (the prologue is called before they are advanced, 981-987). -/
def prologueRec (R : REnv α β τ) (mem : List α) (max toProcess k : Nat) (acc1 : τ) : Outcome τ :=
  if !hasSingleBit max then .ub .staticAssert
  else do
    let acc1 ←
      if (toProcess &&& 2 ^ k) ≠ 0 then do
        let offset : Int := (toProcess &&& (2 ^ k - 1) : Nat)
        let v ← loadFlag1AndInvoke R mem true (2 ^ k) offset offset
        Outcome.ok (R.rT acc1 (R.cvt (R.hredB v)))
      else Outcome.ok acc1
    if _h : 2 ^ k < max then prologueRec R mem max toProcess (k + 1) acc1
    else .ok acc1
termination_by max - 2 ^ k
decreasing_by
  have : 0 < 2 ^ k := Nat.two_pow_pos k
  rw [Nat.pow_succ]; omega

/-- `split<size2, size2>(acc)` and `reduce_op(lo, hi)`, `/repo/vir/simd_execution.h` 869-870 and 879-881. -/
def fold2 (R : REnv α β τ) (h : Nat) (acc : List τ) : List τ := vop R (acc.take h) (acc.drop h)

/-- `simd_transform_reduce_epilogue(acc1, acc, first1, leftover, ...)`, `/repo/vir/simd_execution.h` 836-886, for `A::size() == 2^k`;
`first1` is at position `p1`, `first2...` are at position `p2`. -/
def epilogueAcc (R : REnv α β τ) (mem : List α) (aligned : Bool) (leftover : Nat) :
    Nat → τ → List τ → Int → Int → Outcome τ
  | 0, acc1, acc, p1, p2 =>
    if (leftover &&& 1) ≠ 0 then do
      let v ← loadFlag1AndInvoke R mem aligned 1 p1 p2
      lane0 (vop R [acc1] (vop R acc (v.map R.cvt)))
    else .ub .unreachable
  | k + 1, acc1, acc, p1, p2 =>
    let w := 2 ^ (k + 1)
    if (leftover &&& w) ≠ 0 then do
      let v ← loadFlag1AndInvoke R mem aligned w p1 p2
      let acc := vop R acc (v.map R.cvt)
      if (leftover &&& (w - 1)) = 0 then lane0 (vop R [acc1] [R.hredT acc])
      else epilogueAcc R mem aligned leftover k acc1 (fold2 R (w / 2) acc) (p1 + w) (p2 + w)
    else if (leftover &&& (w - 1)) = 0 then .ub .unreachable
    else epilogueAcc R mem aligned leftover k acc1 (fold2 R (w / 2) acc) p1 p2

/-- `simd_transform_reduce_epilogue<size>(acc1, first1, leftover, ...)`, `/repo/vir/simd_execution.h` 888-934, for `size == 2^k`. -/
def epilogue (R : REnv α β τ) (mem : List α) (aligned : Bool) (leftover : Nat) :
    Nat → τ → Int → Int → Outcome τ
  | 0, acc1, p1, p2 =>
    if (leftover &&& 1) ≠ 0 then do
      let v ← loadFlag1AndInvoke R mem aligned 1 p1 p2
      lane0 (vop R [acc1] (v.map R.cvt))
    else .ub .unreachable
  | k + 1, acc1, p1, p2 =>
    let w := 2 ^ (k + 1)
    if (leftover &&& w) ≠ 0 then do
      let v ← loadFlag1AndInvoke R mem aligned w p1 p2
      let acc := v.map R.cvt
      if (leftover &&& (w - 1)) = 0 then lane0 (vop R [acc1] [R.hredT acc])
      else epilogueAcc R mem aligned leftover k acc1 (fold2 R (w / 2) acc) (p1 + w) (p2 + w)
    else if (leftover &&& (w - 1)) = 0 then .ub .unreachable
    else epilogue R mem aligned leftover k acc1 p1 p2

/-- `it + k`. The pointer arithmetic of `/repo/vir/simd_execution.h` 868-870, 919-921, 1019-1020, 1033-1034, 1052-1053, 1057. -/
def addPtr (e : Env) (n : Nat) (it : Int) (k : Nat) : Outcome Int :=
  if e.strictPtr && decide (it + k > n) then .ub .badPointer else .ok (it + k)

/-- The initial values of the accumulators of the unrolled loop, `/repo/vir/simd_execution.h` 1007-1018: `U` loads at `first1 + i * size`. -/
def unrolledInit (R : REnv α β τ) (mem : List α) (aligned : Bool) (w : Nat) :
    Nat → Int → Int → Outcome (List (List τ))
  | 0, _, _ => .ok []
  | k + 1, p1, p2 => do
    let v ← loadFlag1AndInvoke R mem aligned w p1 p2
    let vs ← unrolledInit R mem aligned w k (p1 + w) (p2 + w)
    .ok (v.map R.cvt :: vs)

/-- The body of the unrolled loop, `/repo/vir/simd_execution.h` 1023-1032: `acc[i] = reduce_op(acc[i], load at first1 + i * size)`. -/
def unrolledBody (R : REnv α β τ) (mem : List α) (aligned : Bool) (w : Nat) :
    List (List τ) → Int → Int → Outcome (List (List τ))
  | [], _, _ => .ok []
  | a :: as, p1, p2 => do
    let v ← loadFlag1AndInvoke R mem aligned w p1 p2
    let as ← unrolledBody R mem aligned w as (p1 + w) (p2 + w)
    .ok (vop R a (v.map R.cvt) :: as)

/-- `if constexpr (i + j < U) acc[i] = reduce_op(acc[i], acc[i+j])` with `i = ii * 2 * j`, `/repo/vir/simd_execution.h` 1042-1044. -/
def treeInner {γ : Type} (r : γ → γ → γ) (U j : Nat) (acc : List γ) (ii : Nat) : List γ :=
  let i := ii * 2 * j
  if i + j < U then
    match acc[i]?, acc[i + j]? with
    | some x, some y => acc.set i (r x y)
    | _, _ => acc
  else acc

/-- One outer step, `/repo/vir/simd_execution.h` 1041-1045: `unroll<U / 2>`. -/
def treeStep {γ : Type} (r : γ → γ → γ) (U : Nat) (acc : List γ) (outer : Nat) : List γ :=
  (List.range (U / 2)).foldl (treeInner r U (2 ^ outer)) acc

/-- The tree reduction of the accumulators, `/repo/vir/simd_execution.h` 1037-1046: `unroll<bit_width(U - 1)>`. (`i` and `j` are `int`
constants in C++; an overflow would be a compile-time error.) -/
def treeReduce {γ : Type} (r : γ → γ → γ) (U : Nat) (acc : List γ) : List γ :=
  (List.range (stdBitWidth (U - 1))).foldl (treeStep r U) acc

/-- `return acc[0]`, `/repo/vir/simd_execution.h` 1047. -/
def acc0 {γ : Type} (acc : List γ) : Outcome γ :=
  match acc with
  | [] => .ub .oob
  | a :: _ => .ok a

/-- `first1`, `first2...` and the vector accumulator. `/repo/vir/simd_execution.h` 999-1062. -/
abbrev AccSt (τ : Type) := Int × Int × List τ

/-- The single load, `/repo/vir/simd_execution.h` 1050-1054. -/
def firstLoad (R : REnv α β τ) (mem : List α) (first1 first2 : Int) : Outcome (AccSt τ) := do
  let v ← loadFlag1AndInvoke R mem (useAligned R.e) R.e.size first1 first2
  .ok (first1 + R.e.size, first2 + R.e.size, v.map R.cvt)

/-- The lambda initialising `acc`, `/repo/vir/simd_execution.h` 999-1055. `do body while (cond)` is `body` followed by `while (cond) body`. -/
def initAcc (R : REnv α β τ) (mem : List α) (first1 first2 : Int) : Outcome (AccSt τ) :=
  if R.e.pol.unrollBy > 1 then do
    let U := R.e.pol.unrollBy.toNat
    let step := R.e.size * U
    let unrolledLast ← subPtr R.e R.n step
    let next ← addPtr R.e R.n first1 step
    if next ≤ unrolledLast then do
      let acc ← unrolledInit R mem (useAligned R.e) R.e.size U first1 first2
      let body := fun (first1 : Int) (st : Int × List (List τ)) => do
        let acc ← unrolledBody R mem (useAligned R.e) R.e.size st.2 first1 st.1
        Outcome.ok (st.1 + (step : Int), acc)
      let st ← body (first1 + step) (first2 + step, acc)
      let (first1, st) ← whileLoop (fun first1 => decide (first1 ≤ unrolledLast)) step body (R.n + 1)
        (first1 + step + step) st
      let a ← acc0 (treeReduce (vop R) U st.2)
      .ok (first1, st.1, a)
    else firstLoad R mem first1 first2
  else firstLoad R mem first1 first2

/-- The code after the main loop, `/repo/vir/simd_execution.h` 1063-1077. -/
def finish (R : REnv α β τ) (mem : List α) (leftover : Nat) (acc1 : τ) (st : AccSt τ) : Outcome τ :=
  let size := R.e.size
  let loSize := stdBitCeil size / 2
  let hiSize := size - loSize
  if size = 1 then lane0 (vop R [acc1] st.2.2)
  else if R.e.pol.assumeMatchingSize || decide (leftover = 0) then lane0 (vop R [acc1] [R.hredT st.2.2])
  else
    let lo := st.2.2.take loSize
    let hi := st.2.2.drop loSize
    let k := Nat.log2 loSize
    if loSize = hiSize then
      epilogueAcc R mem (useAligned R.e) leftover k acc1 (vop R lo hi) st.1 st.2.1
    else do
      let acc1 ← lane0 (vop R [acc1] [R.hredT hi])
      epilogueAcc R mem (useAligned R.e) leftover k acc1 lo st.1 st.2.1

/-- `detail::transform_reduce`, `/repo/vir/simd_execution.h` 936-1088. -/
def transformReduce (R : REnv α β τ) (mem : List α) (init : τ) : Outcome τ :=
  let n := R.n
  let last1 : Int := n
  let size := R.e.size
  if n = 0 then .ok init
  else if R.e.pol.assumeMatchingSize && n % size != 0 then .trap
  else if R.e.constEval then do
    let (_, acc1) ← whileLoop (fun first1 => decide (first1 < last1)) 1
      (fun first1 acc1 => do
        let r ← loadFlag1AndInvoke R mem false 1 first1 first1
        lane0 (vop R [acc1] (r.map R.cvt))) (n + 1) 0 init
    .ok acc1
  else do
    let (first, distance, acc1) ← runPrologue R.e n
      (fun max tp acc1 => prologueRec R mem max tp 0 acc1) 0 init
    let leftover := distance % size
    let loSize := stdBitCeil size / 2
    let simdLast ← subPtr R.e last1 size
    if R.e.pol.assumeMatchingSize || decide (first ≤ simdLast) then do
      let (first1, st) ← initAcc R mem first first
      let (first1, st) ← whileLoop
        (fun first1 => if R.e.pol.assumeMatchingSize then decide (first1 ≠ last1) else decide (first1 ≤ simdLast))
        size
        (fun first1 (st : Int × List τ) => do
          let v ← loadFlag1AndInvoke R mem (useAligned R.e) size first1 st.1
          Outcome.ok (st.1 + (size : Int), vop R st.2 (v.map R.cvt)))
        (n + 1) first1 st
      finish R mem leftover acc1 (first1, st)
    else if loSize > 0 then
      epilogue R mem (useAligned R.e) leftover (Nat.log2 loSize) acc1 first first
    else .ub .unreachable

/-! ### the public overloads -/

/-- `[](auto const& x) { return x; }`, `/repo/vir/simd_execution.h` 1421, 1431, 1441, 1451, 1461, 1471: the identity on simd objects. -/
def identityOp : VecOp α α where
  call args := args.headD []
  shape w args hne hl := by
    cases args with
    | nil => exact absurd rfl hne
    | cons a _ => exact hl a (by simp)

/-- A lane-wise binary operation, e.g. `std::multiplies<>()`, 1341 and 1370, on two simd objects (folded over
the arguments if there are more). `/repo/vir/simd_execution.h` 1341, 1370. -/
def lanewiseOp (f : α → α → α) : VecOp α α where
  call args := args.tail.foldl (List.zipWith f) (args.headD [])
  shape w args hne hl := by
    cases args with
    | nil => exact absurd rfl hne
    | cons a as =>
      have h0 := hl a (by simp)
      have : ∀ (as : List (List α)) (a : List α), a.length = w → (∀ b ∈ as, b.length = w) →
          (as.foldl (List.zipWith f) a).length = w := by
        intro as
        induction as with
        | nil => intro a h _; exact h
        | cons b bs ih =>
          intro a h hb
          exact ih _ (by simp [h, hb b (by simp)]) (fun c hc => hb c (by simp [hc]))
      exact this as a h0 (fun b hb => hl b (by simp [hb]))

/-- `reduce(policy, first, last, init, op)`, `/repo/vir/simd_execution.h` 1434-1442 (with `op = std::plus<>()`: 1424-1432), and its range forms
1454-1472. `first` is at offset `base`
of the arena; the horizontal reductions of the simd implementation are parameters. -/
def reduceInit (e : Env) (base n : Nat) (rB : α → α → α) (rT : τ → τ → τ) (cvt : α → τ) (hredB : List α → α)
    (hredT : List τ → τ) (mem : List α) (init : τ) : Outcome τ :=
  transformReduce ⟨e, [base], n, identityOp, rB, rT, cvt, hredB, hredT⟩ mem init

/-- `reduce(policy, first, last)`, `/repo/vir/simd_execution.h` 1415-1422, and its range form 1444-1452: `zero` is `std::iter_value_t<It>{}`
and `add` is `std::plus<>()`. -/
def reduceDefault (e : Env) (base n : Nat) (zero : α) (add : α → α → α) (hred : List α → α) (mem : List α) :
    Outcome α :=
  transformReduce ⟨e, [base], n, identityOp, add, add, id, hred, hred⟩ mem zero

/-- `transform_reduce(policy, first1, last1, first2, init)`, `/repo/vir/simd_execution.h` 1335-1342, and its range form 1363-1371: `add` is
`std::plus<>()` and `mul` is `std::multiplies<>()`. All operands have the same type. -/
def innerProduct (e : Env) (base1 base2 n : Nat) (add mul : α → α → α) (hred : List α → α) (mem : List α)
    (init : α) : Outcome α :=
  transformReduce ⟨e, [base1, base2], n, lanewiseOp mul, add, add, id, hred, hred⟩ mem init

end TransformReduce
end Vir
