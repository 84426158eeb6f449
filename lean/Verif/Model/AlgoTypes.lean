import Verif.Model.Casts
import Verif.Model.ForEach

/-!
# Which types `transform`, `transform_reduce` and `reduce` compile with

`/repo/vir/simd_execution.h` 611-806, 808-1088, 1332-1460, `/repo/vir/simd.h` 379-396, 1216-1580, 2278-2307.

Function templates are instantiated as a whole: `if (std::is_constant_evaluated())` discards nothing, only `if constexpr` does. A call
compiles if every conversion and every call of a callable in the instantiated statements is possible. The definitions follow the
statements that depend on the result types of the callables. Element types are arithmetic types (no structs).
-/

namespace Vir.AlgoTypes
open Vir.Traits Vir.Casts

/-- `vir::simdize<T, w>` for an arithmetic type and `w > 0` (`/repo/vir/simdize.h` 104-109). -/
def S (t : Ty) (w : Nat) : Ty := .simd t (deduce w)

/-- The conversions of the library: `conv u t` tells if the elements of `fixed_size` simds convert implicitly (`/repo/vir/simd.h`
1582-1588), `bc u t` if a value converts to a simd by broadcast (`ValuePreservingOrInt`, 384-396). -/
structure Convs where
  conv : Ty → Ty → Bool
  bc : Ty → Ty → Bool
  /-- 392 -/
  bc_same : ∀ t, bc t t = true

/-- Whether an expression of type `src` initializes an object of the simd type `dst` implicitly: a simd by the conversions of C76, a
value by broadcast (`/repo/vir/simd.h` 1262-1267, 1573-1579). No other type has a conversion. -/
def fits (c : Convs) (src dst : Ty) : Bool :=
  match src with
  | .simd u a => implicit c.conv (.simd u a) dst
  | .num a => (match dst with | .simd t _ => c.bc (.num a) t | _ => false)
  | _ => false

/-- The same for the result of a callable; `none` if the call does not compile. `/repo/vir/simd_execution.h` 657, 689, 698-699, 744, 751, 779, 790. -/
def fitsRes (c : Convs) (src : Option Ty) (dst : Ty) : Bool :=
  match src with
  | some s => fits c s dst
  | none => false

/-- The types a callable returns, by its argument types. The callables of `/repo/vir/simd_execution.h` 939-943. -/
abbrev BinTy := Ty → Ty → Option Ty

/-- `std::invoke(reduce_op, x, y)`, where the type of `y` is itself the result of a call. The calls of `reduce_op` in `/repo/vir/simd_execution.h` 827, 853, 858, 861, 867, 880, 909, 912, 918, 975, 1026, 1044, 1059, 1064, 1066, 1072, 1074. -/
def call2 (red : BinTy) (x : Ty) (y : Option Ty) : Option Ty :=
  match y with
  | some y => red x y
  | none => none

/-- `std::invoke(...)[0]`: only simds have a subscript. The `[0]` in `/repo/vir/simd_execution.h` 858, 861, 909, 912, 977, 1064, 1066. -/
def subscript (r : Option Ty) : Bool :=
  match r with
  | some (.simd _ _) => true
  | _ => false

/-! ### transform -/

/-- The widths for which `simd_transform_prologue<R>` (`/repo/vir/simd_execution.h` 636-669) is instantiated, starting with `R::size() == w`. -/
def transformPrologueWidths (max w : Nat) : List Nat :=
  if _h : 0 < w ∧ w * 2 < max then w :: transformPrologueWidths max (w * 2) else [w]
termination_by max - w
decreasing_by omega

/-- The widths for which `simd_transform_epilogue` (`/repo/vir/simd_execution.h` 671-708) loads, for `V0::size() == v0`. For `v0 == 2` the statements after the
`return` are instantiated too. -/
def transformEpilogueWidths (v0 : Nat) : List Nat :=
  if _h : v0 ≤ 1 then []
  else if v0 = 2 then [1, 1]
  else
    let w := stdBitCeil v0 / 2
    w :: (if w > 1 then transformEpilogueWidths w else [])
termination_by v0
decreasing_by exact ForEach.half_bitCeil_lt (by omega)

/-- What the template arguments of the policy and the width determine: `size`, `unroll_by`, `assume_matching_size`, and the values of
`max_elements` with which `prologue` (`/repo/vir/simd_execution.h` 573-608) calls the lambda (none without alignment prologue). -/
structure Inst where
  size : Nat
  unrollBy : Nat
  assumeMatchingSize : Bool
  prologueMax : List Nat

/-- The widths with which `detail::transform` (`/repo/vir/simd_execution.h` 710-806) calls `op`, once for every place in the code. -/
def transformWidths (i : Inst) : List Nat :=
  [i.size, 1]
    ++ i.prologueMax.flatMap (fun max => transformPrologueWidths max 1)
    ++ (if i.unrollBy > 1 then [i.size] else [])
    ++ [i.size]
    ++ (if decide (i.size > 1) && !i.assumeMatchingSize then transformEpilogueWidths i.size else [])

/-- Whether `transform` compiles: every result of `op` (its type at width `w` is `op w`) is bound to a reference to
`simdize<OutT, w>`. `/repo/vir/simd_execution.h` 710-806. -/
def transformCompiles (c : Convs) (i : Inst) (outT : Ty) (op : Nat → Option Ty) : Bool :=
  isVectorizable outT && (transformWidths i).all fun w => fitsRes c (op w) (S outT w)

/-! ### transform_reduce -/

/-- `reduce(v, binary_op)` for `v` of type `simd<t, deduce_t<t, n>>` (`/repo/vir/simd.h` 2278-2307). Halves are combined as simds, up to
three elements and the results of the parts as plain values. Simplification: `binary_op` on two simds of one type must return that
type. The loop over plain values is instantiated for `n == 1` too. -/
def hreduceCompiles (red : BinTy) (t : Ty) (n : Nat) : Bool :=
  if _h : n > 3 then
    let n2 := 2 ^ Nat.log2 (n / 2)
    decide (red (S t n2) (S t n2) = some (S t n2)) && hreduceCompiles red t n2
      && (if n - 2 * n2 > 0 then plain && hreduceCompiles red t (n - 2 * n2) else true)
  else plain
termination_by n
decreasing_by
  all_goals
    have h1 : n / 2 ≠ 0 := by omega
    have h2 := Nat.log2_self_le h1
    have h3 : 0 < 2 ^ Nat.log2 (n / 2) := Nat.two_pow_pos _
    omega
where
  /-- `binary_op(r, v[i])` with plain values; the result is assigned to a plain value. -/
  plain : Bool := match red t t with
    | some r => isArithmetic r
    | none => false

/-- `const A1 x = reduce(simdized_load_flag1_and_invoke(...), reduce_op)`, `/repo/vir/simd_execution.h` 823-827: only simds can be reduced. -/
def reduceFits (c : Convs) (red : BinTy) (r : Option Ty) (w : Nat) (a1 : Ty) : Bool :=
  match r with
  | some (.simd u a) => decide (a = deduce w) && hreduceCompiles red u w && fits c u a1
  | _ => false

/-- `simd_transform_reduce_prologue<size, max_size>`, `/repo/vir/simd_execution.h` 808-834. -/
def reducePrologue (c : Convs) (red : BinTy) (t : Ty) (op : Nat → Option Ty) (max size : Nat) : Bool :=
  reduceFits c red (op size) size (S t 1) && fitsRes c (red (S t 1) (S t 1)) (S t 1)
    && (if _h : 0 < size ∧ size < max then reducePrologue c red t op max (size * 2) else true)
termination_by max - size
decreasing_by omega

/-- `simd_transform_reduce_epilogue(acc1, acc, ...)`, `/repo/vir/simd_execution.h` 836-886, for `A::size() == s`. -/
def reduceEpilogueAcc (c : Convs) (red : BinTy) (t : Ty) (op : Nat → Option Ty) (s : Nat) : Bool :=
  fitsRes c (call2 red (S t s) (op s)) (S t s) &&
  (if _h : s ≤ 1 then subscript (red (S t 1) (S t s))
   else hreduceCompiles red t s && subscript (red (S t 1) (S t 1))
     && fitsRes c (red (S t (s / 2)) (S t (s / 2))) (S t (s / 2)) && reduceEpilogueAcc c red t op (s / 2))
termination_by s
decreasing_by omega

/-- `simd_transform_reduce_epilogue<size>(acc1, ...)`, `/repo/vir/simd_execution.h` 888-934. -/
def reduceEpilogue (c : Convs) (red : BinTy) (t : Ty) (op : Nat → Option Ty) (s : Nat) : Bool :=
  fitsRes c (op s) (S t s) &&
  (if _h : s ≤ 1 then subscript (red (S t 1) (S t s))
   else hreduceCompiles red t s && subscript (red (S t 1) (S t 1))
     && fitsRes c (red (S t (s / 2)) (S t (s / 2))) (S t (s / 2)) && reduceEpilogueAcc c red t op (s / 2)
     && reduceEpilogue c red t op (s / 2))
termination_by s
decreasing_by omega

/-- `detail::transform_reduce`, `/repo/vir/simd_execution.h` 936-1088, for `init` of type `t`; `op w` is the type `transform_op` returns at width `w`. The lambda
that initializes `acc` (999-1055) has two `return` statements if `unroll_by > 1`, and no declared return type. -/
def transformReduceCompiles (c : Convs) (i : Inst) (red : BinTy) (t : Ty) (op : Nat → Option Ty) : Bool :=
  let a1 := S t 1
  let a := S t i.size
  let lo := stdBitCeil i.size / 2
  let hi := i.size - lo
  isVectorizable t
    && (fitsRes c (op 1) a1 && fitsRes c (red a1 a1) a1)
    && i.prologueMax.all (fun max => reducePrologue c red t op max 1)
    && (if i.unrollBy > 1 then
          fitsRes c (op i.size) a && fitsRes c (call2 red a (op i.size)) a && fitsRes c (red a a) a && decide (op i.size = some a)
        else true)
    && fitsRes c (op i.size) a
    && fitsRes c (call2 red a (op i.size)) a
    && (if i.size = 1 then subscript (red a1 a)
        else hreduceCompiles red t i.size && subscript (red a1 a1)
          && (if lo = hi then fitsRes c (red (S t lo) (S t hi)) (S t lo)
              else hreduceCompiles red t hi && fitsRes c (red a1 a1) a1)
          && reduceEpilogueAcc c red t op lo)
    && (if lo > 0 then reduceEpilogue c red t op lo else true)

/-- The binary operators of the simd types (`/repo/vir/simd.h` 1377-1378, 1726-1731): hidden friends of each class that take two objects of the
class. One of the two classes must take both arguments. -/
def binaryOp (c : Convs) : BinTy := fun x y =>
  if x = y then (match x with | .simd _ _ => some x | .num _ => some x | _ => none)
  else match fits c y x, fits c x y with
    | true, false => some x
    | false, true => some y
    | _, _ => none

/-- `reduce(policy, rng, init, op)`, `/repo/vir/simd_execution.h` 1398-1474: the identity as `transform_op`. -/
def reduceCompiles (c : Convs) (i : Inst) (red : BinTy) (t elem : Ty) : Bool :=
  transformReduceCompiles c i red t fun w => if isVectorizable elem then some (S elem w) else none

/-- The inner product: `transform_reduce` without callables, `/repo/vir/simd_execution.h` 1334-1342. -/
def innerProductCompiles (c : Convs) (i : Inst) (t elem1 elem2 : Ty) : Bool :=
  transformReduceCompiles c i (binaryOp c) t fun w =>
    if isVectorizable elem1 && isVectorizable elem2 then binaryOp c (S elem1 w) (S elem2 w) else none

end Vir.AlgoTypes
