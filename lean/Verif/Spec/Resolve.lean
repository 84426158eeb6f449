import Verif.Model.Resolve

/-!
# The documented call forms

The documentation of each algorithm (`/repo/vir/simd_execution.h` 1090-1107, 1183-1210, 1278-1332, 1399-1412, 1477-1491) names the
parameters of its overloads. A form is the list of these names; `planOf` says what the documentation promises for a form.
-/

namespace Vir.Spec
open Resolve

/-- The meaning of a parameter. -/
inductive Role
  | policy
  | first1
  | last1
  | first2
  | dFirst
  | rng1
  | rng2
  | dRng
  | zipped
  | init
  | reduceOp
  | op
deriving DecidableEq, Repr

inductive Algo
  | forEach
  | transform
  | transformReduce
  | reduce
  | countIf
deriving DecidableEq, Repr

/-- The documented iterator overloads. -/
def iteratorForms : Algo → List (List Role)
  | .forEach => [[.policy, .first1, .last1, .op]]
  | .transform => [[.policy, .first1, .last1, .dFirst, .op], [.policy, .first1, .last1, .first2, .dFirst, .op]]
  | .transformReduce => [[.policy, .first1, .last1, .first2, .init], [.policy, .first1, .last1, .first2, .init, .reduceOp, .op],
      [.policy, .first1, .last1, .init, .reduceOp, .op]]
  | .reduce => [[.policy, .first1, .last1], [.policy, .first1, .last1, .init], [.policy, .first1, .last1, .init, .reduceOp]]
  | .countIf => [[.policy, .first1, .last1, .op]]

/-- The documented range overloads. -/
def rangeForms : Algo → List (List Role)
  | .forEach => [[.policy, .rng1, .op]]
  | .transform => [[.policy, .rng1, .dRng, .op], [.policy, .rng1, .rng2, .dRng, .op]]
  | .transformReduce => [[.policy, .rng1, .rng2, .init], [.policy, .rng1, .rng2, .init, .reduceOp, .op],
      [.policy, .rng1, .init, .reduceOp, .op]]
  | .reduce => [[.policy, .rng1], [.policy, .rng1, .init], [.policy, .rng1, .init, .reduceOp]]
  | .countIf => [[.policy, .rng1, .op]]

/-- The documented overload for a `zip_view`. -/
def zipForm : List Role := [.policy, .zipped, .dRng, .op]

/-- The position of a role in a form. -/
def at? (f : List Role) (r : Role) : Option Nat := f.findIdx? (· == r)

/-- The value at a position, or the documented default. -/
def valOr (f : List Role) (r : Role) (d : Val) : Val := ((at? f r).map Val.arg).getD d

/-- The documented meaning of a form: inputs are the range between the first two iterators (or the first range), then the second range if
there is one; the default initial value is a value-initialised element, the default reduction `std::plus`, the default transformation
`std::multiplies` for `transform_reduce` and none for `reduce`. -/
def planOf (al : Algo) (f : List Role) : Plan where
  kernel := match al with
    | .forEach => .forEach
    | .transform => .transform
    | .transformReduce | .reduce => .transformReduce
    | .countIf => .countIf
  src := match at? f .zipped, at? f .rng1, at? f .first1, at? f .last1 with
    | some i, _, _, _ => .zip i
    | none, some i, _, _ => .iters (.begin i) (.end i) (((at? f .rng2).map Pos.begin).toList)
    | none, none, i, j => .iters (.arg (i.getD 0)) (.arg (j.getD 0)) (((at? f .first2).map Pos.arg).toList)
  out := ((at? f .dRng).map Pos.begin).or ((at? f .dFirst).map Pos.arg)
  init := match al with
    | .transformReduce | .reduce => some (valOr f .init .zero)
    | _ => none
  red := match al with
    | .transformReduce | .reduce => some (valOr f .reduceOp .plus)
    | _ => none
  op := valOr f .op (match al with
    | .transformReduce => .multiplies
    | _ => .ident)

variable {Ty : Type}

/-- An argument can play a role. -/
def Plays (W : Types Ty) (a : Arg Ty) : Role → Prop
  | .policy => W.isPolicy (W.decay a.ty) = true
  | .first1 | .last1 | .first2 | .dFirst => W.isIter (W.decay a.ty) = true
  | .rng1 | .rng2 | .dRng => W.isRange a.ty = true
  | .zipped => ∃ ts, W.zipOf a.ty = some ts ∧ ∀ t ∈ ts, W.isRange t = true
  | .init | .reduceOp | .op => True

/-- The arguments can play the roles of a form; `first1` and `last1` have the same type. -/
def Fit (W : Types Ty) : List Role → List (Arg Ty) → Prop
  | [], [] => True
  | .first1 :: .last1 :: rs, a :: b :: as =>
    Plays W a .first1 ∧ Plays W b .last1 ∧ W.decay a.ty = W.decay b.ty ∧ Fit W rs as
  | r :: rs, a :: as => Plays W a r ∧ Fit W rs as
  | _, _ => False

/-- The callables among the arguments can be invoked as documented: `op` with one `simd` per input range (a pair or tuple of them for a
`zip_view`), `reduceOp` with two. -/
def CallablesOk (W : Types Ty) (f : List Role) (args : List (Arg Ty)) : Prop :=
  (∀ i a, at? f .op = some i → args[i]? = some a → W.accepts (W.decay a.ty)
    (match (at? f .zipped).bind (args[·]?) with
      | some z => .tuple ((W.zipOf z.ty).getD []).length
      | none => .vectors (if .rng2 ∈ f ∨ .first2 ∈ f then 2 else 1)) = true) ∧
  (∀ i a, at? f .reduceOp = some i → args[i]? = some a → W.accepts (W.decay a.ty) (.vectors 2) = true)

/-- A `zip_view` is not a contiguous range, and there is no `zip_view<>`. -/
def Sane (W : Types Ty) : Prop := ∀ t, (W.isRange t = true → W.zipOf t = none) ∧ W.zipOf t ≠ some []

/-- The overload set of an algorithm in `namespace vir`. -/
def virSet : Algo → List Overload
  | .forEach => forEachSet
  | .transform => transformSet
  | .transformReduce => transformReduceSet
  | .reduce => reduceSet
  | .countIf => countIfSet

/-- The overloads added to `namespace std`. -/
def stdSet : Algo → List Overload
  | .forEach => stdForEachSet
  | .transform => stdTransformSet
  | .transformReduce => stdTransformReduceSet
  | .reduce => stdReduceSet
  | .countIf => stdCountIfSet

end Vir.Spec
