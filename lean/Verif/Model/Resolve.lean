/-!
# Overload sets of the public algorithms

`/repo/vir/simd_execution.h` 1110-1179 (`vir::for_each`), 1212-1274 (`vir::transform`), 1334-1396 (`vir::transform_reduce`), 1414-1473
(`vir::reduce`), 1493-1533 (`vir::count_if`) and 1543-1653 (the overloads added to `namespace std`). The model covers which overload a call
selects, and which kernel that overload runs on which of its arguments. What the kernels do is the subject of the other models.

Overload resolution is modelled for function templates whose parameters are `T`, `T&`, `T&&` or `const zip_view<Rs...>&`:
template argument deduction, constraints, and partial ordering by deduction ([temp.deduct.partial]). All conversions that occur are exact
matches that the ranking of conversions does not distinguish (an array-to-pointer conversion is not worse than binding a reference, see
[over.ics.rank] 3.2.1), so partial ordering decides. Simplifications: arguments passed by value are assumed copyable; the candidates of the
standard library itself are left out (they require the first two arguments to have the same type, or a standard execution policy).
-/

namespace Vir.Resolve

/-- How a callable is invoked: with `n` `simd` arguments, or with one pair/tuple of `n` of them (`/repo/vir/simd_execution.h` 1262-1268). -/
inductive Shape
  | vectors (n : Nat)
  | tuple (n : Nat)
deriving DecidableEq, Repr

/-- What matters about the types of the arguments. `isPolicy`, `isIter` and `isRange` are the concepts `simd_execution_policy`,
`simd_execution_iterator` and `simd_execution_range` (`/repo/vir/simd_execution.h` 397-415), `decay` is the type deduced for a by-value
parameter, `common` is `std::ranges::common_range`, `zipOf` yields the `Rs...` of a `std::ranges::zip_view<Rs...>`. -/
structure Types (Ty : Type) where
  decay : Ty → Ty
  isPolicy : Ty → Bool
  isIter : Ty → Bool
  isRange : Ty → Bool
  isConst : Ty → Bool
  common : Ty → Bool
  zipOf : Ty → Option (List Ty)
  accepts : Ty → Shape → Bool

/-- A function argument: its type (without reference) and whether it is an lvalue. `/repo/vir/simd_execution.h` 1088-1653. -/
structure Arg (Ty : Type) where
  ty : Ty
  lvalue : Bool
deriving DecidableEq, Repr

/-- The function parameters that occur: `T t`, `T&& t`, `T& t` and `const std::ranges::zip_view<Rs...>& t`; template parameters are
numbered. `/repo/vir/simd_execution.h` 1088-1653. -/
inductive Param
  | val (t : Nat)
  | fwd (t : Nat)
  | lref (t : Nat)
  | zip
deriving DecidableEq, Repr

/-- The constraint on a template parameter. `/repo/vir/simd_execution.h` 397-415. -/
inductive Concept
  | policy
  | iter
  | range
deriving DecidableEq, Repr

/-- A position in memory: an iterator argument, or the begin or end of a range argument. `/repo/vir/simd_execution.h` 1174-1532. -/
inductive Pos
  | arg (i : Nat)
  | begin (i : Nat)
  | end (i : Nat)
deriving DecidableEq, Repr

/-- The first input range `[first, last)` and the begins of the others, or the components of a `zip_view`. `/repo/vir/simd_execution.h` 1174-1532. -/
inductive Source
  | iters (first last : Pos) (more : List Pos)
  | zip (i : Nat)
deriving DecidableEq, Repr

/-- A value or callable: an argument, a value-initialised element, `std::plus<>`, `std::multiplies<>` or the identity. `/repo/vir/simd_execution.h` 1330-1472. -/
inductive Val
  | arg (i : Nat)
  | zero
  | plus
  | multiplies
  | ident
deriving DecidableEq, Repr

/-- The functions that do the work: `for_each` (iterators), `detail::transform`, `detail::transform_reduce`, `count_if` (iterators). `/repo/vir/simd_execution.h` 710-713, 939-943, 1110-1113, 1493-1496. -/
inductive Kernel
  | forEach
  | transform
  | transformReduce
  | countIf
deriving DecidableEq, Repr

/-- A call of one of the kernels. `/repo/vir/simd_execution.h` 1174-1532. -/
structure Plan where
  kernel : Kernel
  src : Source
  out : Option Pos := none
  init : Option Val := none
  red : Option Val := none
  op : Val
deriving DecidableEq, Repr

/-- A function template: its parameters, the constraints on its template parameters, and what its body calls. `/repo/vir/simd_execution.h` 1088-1653. -/
structure Overload where
  params : List Param
  req : List (Nat × Concept)
  plan : Plan
deriving DecidableEq, Repr

open Param Concept

/-- `vir::for_each` (`/repo/vir/simd_execution.h` 1110-1113, 1175-1179). -/
def forEachSet : List Overload :=
  [ ⟨[val 0, val 1, val 1, fwd 2], [(0, policy), (1, iter)], ⟨.forEach, .iters (.arg 1) (.arg 2) [], none, none, none, .arg 3⟩⟩,
    ⟨[val 0, fwd 1, fwd 2], [(0, policy), (1, range)], ⟨.forEach, .iters (.begin 1) (.end 1) [], none, none, none, .arg 2⟩⟩ ]

/-- `vir::transform` (`/repo/vir/simd_execution.h` 1213-1217, 1220-1226, 1229-1236, 1239-1247, 1250-1270). -/
def transformSet : List Overload :=
  [ ⟨[val 0, val 1, val 1, val 2, val 3], [(0, policy), (1, iter), (2, iter)],
      ⟨.transform, .iters (.arg 1) (.arg 2) [], some (.arg 3), none, none, .arg 4⟩⟩,
    ⟨[val 0, val 1, val 1, val 2, val 3, val 4], [(0, policy), (1, iter), (2, iter), (3, iter)],
      ⟨.transform, .iters (.arg 1) (.arg 2) [.arg 3], some (.arg 4), none, none, .arg 5⟩⟩,
    ⟨[val 0, fwd 1, lref 2, val 3], [(0, policy), (1, range), (2, range)],
      ⟨.transform, .iters (.begin 1) (.end 1) [], some (.begin 2), none, none, .arg 3⟩⟩,
    ⟨[val 0, fwd 1, fwd 2, lref 3, val 4], [(0, policy), (1, range), (2, range), (3, range)],
      ⟨.transform, .iters (.begin 1) (.end 1) [.begin 2], some (.begin 3), none, none, .arg 4⟩⟩,
    ⟨[val 0, zip, fwd 1, val 2], [(0, policy), (1, range)],
      ⟨.transform, .zip 1, some (.begin 2), none, none, .arg 3⟩⟩ ]

/-- `vir::transform_reduce` (`/repo/vir/simd_execution.h` 1335-1342, 1345-1353, 1356-1361, 1364-1371, 1374-1383, 1386-1394). -/
def transformReduceSet : List Overload :=
  [ ⟨[val 0, val 1, val 1, val 2, val 3], [(0, policy), (1, iter), (2, iter)],
      ⟨.transformReduce, .iters (.arg 1) (.arg 2) [.arg 3], none, some (.arg 4), some .plus, .multiplies⟩⟩,
    ⟨[val 0, val 1, val 1, val 2, val 3, val 4, val 5], [(0, policy), (1, iter), (2, iter)],
      ⟨.transformReduce, .iters (.arg 1) (.arg 2) [.arg 3], none, some (.arg 4), some (.arg 5), .arg 6⟩⟩,
    ⟨[val 0, val 1, val 1, val 2, val 3, val 4], [(0, policy), (1, iter)],
      ⟨.transformReduce, .iters (.arg 1) (.arg 2) [], none, some (.arg 3), some (.arg 4), .arg 5⟩⟩,
    ⟨[val 0, fwd 1, fwd 2, val 3], [(0, policy), (1, range), (2, range)],
      ⟨.transformReduce, .iters (.begin 1) (.end 1) [.begin 2], none, some (.arg 3), some .plus, .multiplies⟩⟩,
    ⟨[val 0, fwd 1, fwd 2, val 3, val 4, val 5], [(0, policy), (1, range), (2, range)],
      ⟨.transformReduce, .iters (.begin 1) (.end 1) [.begin 2], none, some (.arg 3), some (.arg 4), .arg 5⟩⟩,
    ⟨[val 0, fwd 1, val 2, val 3, val 4], [(0, policy), (1, range)],
      ⟨.transformReduce, .iters (.begin 1) (.end 1) [], none, some (.arg 2), some (.arg 3), .arg 4⟩⟩ ]

/-- `vir::reduce` (`/repo/vir/simd_execution.h` 1416-1422, 1425-1432, 1435-1442, 1445-1452, 1455-1462, 1465-1472). -/
def reduceSet : List Overload :=
  [ ⟨[val 0, val 1, val 1], [(0, policy), (1, iter)],
      ⟨.transformReduce, .iters (.arg 1) (.arg 2) [], none, some .zero, some .plus, .ident⟩⟩,
    ⟨[val 0, val 1, val 1, val 2], [(0, policy), (1, iter)],
      ⟨.transformReduce, .iters (.arg 1) (.arg 2) [], none, some (.arg 3), some .plus, .ident⟩⟩,
    ⟨[val 0, val 1, val 1, val 2, val 3], [(0, policy), (1, iter)],
      ⟨.transformReduce, .iters (.arg 1) (.arg 2) [], none, some (.arg 3), some (.arg 4), .ident⟩⟩,
    ⟨[val 0, fwd 1], [(0, policy), (1, range)],
      ⟨.transformReduce, .iters (.begin 1) (.end 1) [], none, some .zero, some .plus, .ident⟩⟩,
    ⟨[val 0, fwd 1, val 2], [(0, policy), (1, range)],
      ⟨.transformReduce, .iters (.begin 1) (.end 1) [], none, some (.arg 2), some .plus, .ident⟩⟩,
    ⟨[val 0, fwd 1, val 2, val 3], [(0, policy), (1, range)],
      ⟨.transformReduce, .iters (.begin 1) (.end 1) [], none, some (.arg 2), some (.arg 3), .ident⟩⟩ ]

/-- `vir::count_if` (`/repo/vir/simd_execution.h` 1493-1496, 1525-1532). -/
def countIfSet : List Overload :=
  [ ⟨[val 0, val 1, val 1, fwd 2], [(0, policy), (1, iter)], ⟨.countIf, .iters (.arg 1) (.arg 2) [], none, none, none, .arg 3⟩⟩,
    ⟨[val 0, fwd 1, fwd 2], [(0, policy), (1, range)], ⟨.countIf, .iters (.begin 1) (.end 1) [], none, none, none, .arg 2⟩⟩ ]

/-- The overloads of `std::for_each`, `std::transform`, `std::transform_reduce`, `std::reduce` and `std::count_if` that the header adds
(`/repo/vir/simd_execution.h` 1543-1547, 1552-1568, 1574-1607, 1612-1645, 1645-1652). -/
def stdForEachSet : List Overload :=
  [ ⟨[val 0, val 1, val 1, fwd 2], [(0, policy), (1, iter)], ⟨.forEach, .iters (.arg 1) (.arg 2) [], none, none, none, .arg 3⟩⟩ ]

@[inherit_doc stdForEachSet]
def stdTransformSet : List Overload :=
  [ ⟨[val 0, val 1, val 1, val 2, val 3], [(0, policy), (1, iter), (2, iter)],
      ⟨.transform, .iters (.arg 1) (.arg 2) [], some (.arg 3), none, none, .arg 4⟩⟩,
    ⟨[val 0, val 1, val 1, val 2, val 3, val 4], [(0, policy), (1, iter), (2, iter), (3, iter)],
      ⟨.transform, .iters (.arg 1) (.arg 2) [.arg 3], some (.arg 4), none, none, .arg 5⟩⟩ ]

@[inherit_doc stdForEachSet]
def stdTransformReduceSet : List Overload :=
  [ ⟨[val 0, val 1, val 1, val 2, val 3], [(0, policy), (1, iter), (2, iter)],
      ⟨.transformReduce, .iters (.arg 1) (.arg 2) [.arg 3], none, some (.arg 4), some .plus, .multiplies⟩⟩,
    ⟨[val 0, val 1, val 1, val 2, val 3, val 4, val 5], [(0, policy), (1, iter), (2, iter)],
      ⟨.transformReduce, .iters (.arg 1) (.arg 2) [.arg 3], none, some (.arg 4), some (.arg 5), .arg 6⟩⟩,
    ⟨[val 0, val 1, val 1, val 2, val 3, val 4], [(0, policy), (1, iter)],
      ⟨.transformReduce, .iters (.arg 1) (.arg 2) [], none, some (.arg 3), some (.arg 4), .arg 5⟩⟩ ]

@[inherit_doc stdForEachSet]
def stdReduceSet : List Overload :=
  [ ⟨[val 0, val 1, val 1], [(0, policy), (1, iter)],
      ⟨.transformReduce, .iters (.arg 1) (.arg 2) [], none, some .zero, some .plus, .ident⟩⟩,
    ⟨[val 0, val 1, val 1, val 2], [(0, policy), (1, iter)],
      ⟨.transformReduce, .iters (.arg 1) (.arg 2) [], none, some (.arg 3), some .plus, .ident⟩⟩,
    ⟨[val 0, val 1, val 1, val 2, val 3], [(0, policy), (1, iter)],
      ⟨.transformReduce, .iters (.arg 1) (.arg 2) [], none, some (.arg 3), some (.arg 4), .ident⟩⟩ ]

@[inherit_doc stdForEachSet]
def stdCountIfSet : List Overload :=
  [ ⟨[val 0, val 1, val 1, fwd 2], [(0, policy), (1, iter)], ⟨.countIf, .iters (.arg 1) (.arg 2) [], none, none, none, .arg 3⟩⟩ ]

variable {Ty : Type} [DecidableEq Ty]

/-- Records that template parameter `t` is deduced as `x`; a conflicting earlier deduction is a failure. Template argument deduction for `/repo/vir/simd_execution.h` 1088-1653. -/
def assign {X : Type} [DecidableEq X] (s : List (Nat × X)) (t : Nat) (x : X) : Option (List (Nat × X)) :=
  match s.lookup t with
  | none => some ((t, x) :: s)
  | some y => if y = x then some s else none

/-- Template argument deduction from a call for one parameter. By-value parameters decay the argument; `T&` does not bind to a
non-const rvalue; `const zip_view<Rs...>&` binds to every `zip_view`, and its `Rs...` are constrained by `simd_execution_range`
(`/repo/vir/simd_execution.h` 1252). -/
def deduceOne (W : Types Ty) (s : List (Nat × Ty)) (a : Arg Ty) : Param → Option (List (Nat × Ty))
  | .val t => assign s t (W.decay a.ty)
  | .fwd t => assign s t a.ty
  | .lref t => if a.lvalue || W.isConst a.ty then assign s t a.ty else none
  | .zip => match W.zipOf a.ty with
    | some ts => if ts.all W.isRange then some s else none
    | none => none

/-- Deduction for all parameters of a call. Template argument deduction for `/repo/vir/simd_execution.h` 1088-1653. -/
def deduce (W : Types Ty) : List (Nat × Ty) → List Param → List (Arg Ty) → Option (List (Nat × Ty))
  | s, [], [] => some s
  | s, p :: ps, a :: as => (deduceOne W s a p).bind fun s => deduce W s ps as
  | _, _, _ => none

/-- A type satisfies a concept. `/repo/vir/simd_execution.h` 397-415. -/
def models (W : Types Ty) (t : Ty) : Concept → Bool
  | .policy => W.isPolicy t
  | .iter => W.isIter t
  | .range => W.isRange t

/-- Deduction succeeds and the constraints are satisfied. Overload resolution for `/repo/vir/simd_execution.h` 1088-1653. -/
def viable (W : Types Ty) (args : List (Arg Ty)) (o : Overload) : Bool :=
  match deduce W [] o.params args with
  | none => false
  | some s => o.req.all fun r => match s.lookup r.1 with
    | some t => models W t r.2
    | none => false

/-- The types used for partial ordering: references are dropped, each template parameter is replaced by a unique type, and a `zip_view` of
a pack of unique types differs from all of these. Overload resolution for `/repo/vir/simd_execution.h` 1088-1653. -/
def unique : Param → Option Nat
  | .val t => some t
  | .fwd t => some t
  | .lref t => some t
  | .zip => none

/-- Deduction of the parameters `ps` from unique types. Overload resolution for `/repo/vir/simd_execution.h` 1088-1653. -/
def deduceUnique : List (Nat × Option Nat) → List Param → List (Option Nat) → Bool
  | _, [], [] => true
  | s, .zip :: ps, u :: us => u.isNone && deduceUnique s ps us
  | s, .val t :: ps, u :: us => match assign s t u with
    | some s => deduceUnique s ps us
    | none => false
  | s, .fwd t :: ps, u :: us => match assign s t u with
    | some s => deduceUnique s ps us
    | none => false
  | s, .lref t :: ps, u :: us => match assign s t u with
    | some s => deduceUnique s ps us
    | none => false
  | _, _, _ => false

/-- `f` is at least as specialised as `g`. Overload resolution for `/repo/vir/simd_execution.h` 1088-1653. -/
def atLeast (f g : Overload) : Bool := deduceUnique [] g.params (f.params.map unique)

/-- `f` is more specialised than `g`. Overload resolution for `/repo/vir/simd_execution.h` 1088-1653. -/
def moreSpecialised (f g : Overload) : Bool := atLeast f g && !atLeast g f

/-- The outcome of overload resolution. Overload resolution for `/repo/vir/simd_execution.h` 1088-1653. -/
inductive Resolved
  | noMatch
  | ambiguous
  | ok (o : Overload)
deriving DecidableEq, Repr

/-- The viable candidate that is more specialised than every other viable candidate. Overload resolution for `/repo/vir/simd_execution.h` 1088-1653. -/
def resolve (W : Types Ty) (cands : List Overload) (args : List (Arg Ty)) : Resolved :=
  let vs := cands.filter (viable W args)
  match vs.filter fun f => vs.all fun g => f == g || moreSpecialised f g with
  | [f] => .ok f
  | _ => if vs.isEmpty then .noMatch else .ambiguous

/-- The type of argument `i`. Overload resolution for `/repo/vir/simd_execution.h` 1088-1653. -/
def argTy (args : List (Arg Ty)) (i : Nat) : Option Ty := (args[i]?).map Arg.ty

/-- The callable can be invoked that way. `/repo/vir/simd_execution.h` 622, 631, 1262-1267. -/
def callable (W : Types Ty) (args : List (Arg Ty)) (sh : Shape) : Val → Bool
  | .arg i => match argTy args i with
    | some t => W.accepts (W.decay t) sh
    | none => false
  | .zero => false
  | .plus => sh == .vectors 2
  | .multiplies => sh == .vectors 2
  | .ident => sh == .vectors 1

/-- The kernels take `(It first, It last)`: a range whose begin and end have different types is an error in the body of the overload
(`/repo/vir/simd_execution.h` 713, 942, 1113, 1496). A `zip_view` is accessed through pointers (1256-1258). -/
def sourceOk (W : Types Ty) (args : List (Arg Ty)) : Source → Bool
  | .iters (.begin i) (.end j) _ => i == j && match argTy args i with
    | some t => W.common t
    | none => false
  | .iters _ _ _ => true
  | .zip _ => true

/-- How the kernel invokes `op`: with one `simd` per input range, or a pair or tuple of them. `/repo/vir/simd_execution.h` 622, 631, 1262-1267. -/
def shapeOf (W : Types Ty) (args : List (Arg Ty)) : Source → Shape
  | .iters _ _ more => .vectors (1 + more.length)
  | .zip i => .tuple (((argTy args i).bind W.zipOf).getD []).length

/-- The body of the selected overload compiles. `/repo/vir/simd_execution.h` 1174-1532. -/
def compiles (W : Types Ty) (args : List (Arg Ty)) (p : Plan) : Bool :=
  sourceOk W args p.src && callable W args (shapeOf W args p.src) p.op && match p.red with
    | some r => callable W args (.vectors 2) r
    | none => true

/-- What becomes of a call: no viable overload, an ambiguous call, an error inside the selected overload, or a call of a kernel. Overload resolution for `/repo/vir/simd_execution.h` 1088-1653. -/
inductive CallResult
  | noMatch
  | ambiguous
  | hardError
  | runs (p : Plan)
deriving DecidableEq, Repr

/-- A call with these arguments. `/repo/vir/simd_execution.h` 1088-1653. -/
def call (W : Types Ty) (cands : List Overload) (args : List (Arg Ty)) : CallResult :=
  match resolve W cands args with
  | .noMatch => .noMatch
  | .ambiguous => .ambiguous
  | .ok o => if compiles W args o.plan then .runs o.plan else .hardError

end Vir.Resolve
