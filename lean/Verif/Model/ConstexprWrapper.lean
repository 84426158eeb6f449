import Verif.Outcome

/-!
# Operators of `constexpr_wrapper` (`/repo/vir/constexpr_wrapper.h` 30-372)

`V` are values together with their types. An operator of the language, applied to values, is a function to `Outcome V`: a value, or
undefined behaviour (in a constant expression: not a constant), or `ub staticAssert` if there is no such operator. Overload
resolution is modelled for the hidden friends of `constexpr_wrapper`, found by argument-dependent lookup, against the operators of
the wrapped values, which need a user-defined conversion and are therefore worse than a friend. Operators with side effects on
their operand (assignment, increment) exist for wrapped class types only.
-/

namespace Vir.Cw

variable {V : Type} [DecidableEq V]

/-- The type of an operand, with its run-time value. An operand of `/repo/vir/constexpr_wrapper.h` 154-313. -/
structure Operand (V : Type) where
  /-- `T::value`, if it can be used as a template argument -/
  value : Option V
  /-- the `w` for which `T` is or is derived from `constexpr_wrapper<w>` -/
  bases : List V
  /-- the `w` for which `constexpr_wrapper<w>` is associated with `T` via template arguments of `T` -/
  args : List V
  /-- what the object converts to (the object itself if there is no conversion) -/
  conv : V
deriving DecidableEq

/-- `constexpr_wrapper<v>` (`/repo/vir/constexpr_wrapper.h` 67-78). -/
def wrapper (v : V) : Operand V := ⟨some v, [v], [], v⟩

/-- An object of a type without static `value`. An operand of `/repo/vir/constexpr_wrapper.h` 154-313. -/
def plain (v : V) : Operand V := ⟨none, [], [], v⟩

/-- `constexpr_value<T>` (`/repo/vir/constexpr_wrapper.h` 34-42). -/
def constexprValue (t : Operand V) : Bool := t.value.isSome

/-- `_any_constexpr_wrapper<T>` (`/repo/vir/constexpr_wrapper.h` 47-51). -/
def anyWrapper (t : Operand V) : Bool :=
  match t.value with
  | some v => t.bases.contains v
  | none => false

/-- `_lhs_constexpr_wrapper<T, constexpr_wrapper<this>>` (`/repo/vir/constexpr_wrapper.h` 53-62). -/
def lhsWrapper (t : Operand V) (this : V) : Bool :=
  constexprValue t && (t.bases.contains this || !anyWrapper t)

/-- Every class is searched once. Argument-dependent lookup of `/repo/vir/constexpr_wrapper.h` 154-313. -/
def distinct : List V → List V
  | [] => []
  | x :: l => if l.contains x then distinct l else x :: distinct l

/-- The hidden friends `operator@(Ap, Bp)` that are viable (`/repo/vir/constexpr_wrapper.h` 146-327; all of them have the same
constraints): one for every associated `constexpr_wrapper`. -/
def candidates (a b : Operand V) : List V :=
  (distinct (a.bases ++ a.args ++ b.bases ++ b.args)).filter fun this => lhsWrapper a this && constexprValue b

/-- `a @ b` (`/repo/vir/constexpr_wrapper.h` 146-327). Substitution into the return type `constexpr_wrapper<Ap::value @ Bp::value>`
fails if that is not a constant. Without viable friend the operands convert to their values. -/
def binary (op : V → V → Outcome V) (a b : Operand V) : Outcome (Operand V) :=
  let r : Option V := match a.value, b.value with
    | some x, some y => match op x y with
      | .ok z => some z
      | _ => none
    | _, _ => none
  match r, candidates a b with
  | some z, [_] => .ok (wrapper z)
  | some _, _ :: _ :: _ => .ub .staticAssert
  | _, _ => do
    let z ← op a.conv b.conv
    .ok (plain z)

/-- `@a` (`/repo/vir/constexpr_wrapper.h` 104-152): a member template whose return type is `constexpr_wrapper<@Yp>`. A class
derived from one wrapper inherits it; `bases` with several elements make it ambiguous. -/
def unary (op : V → Outcome V) (a : Operand V) : Outcome (Operand V) :=
  match a.bases with
  | [w] => match op w with
    | .ok z => .ok (wrapper z)
    | _ => do
      let z ← op a.conv
      .ok (plain z)
  | [] => do
    let z ← op a.conv
    .ok (plain z)
  | _ => .ub .staticAssert

/-- How a value is called. `/repo/vir/constexpr_wrapper.h` 323-339. -/
structure Callable (V : Type) where
  /-- the result of `f(args...)`; `ub staticAssert` if it cannot be called like that -/
  call : V → List V → Outcome V
  /-- whether `f(args...)` is a constant expression -/
  isConst : V → List V → Bool

/-- `cw<f>(args...)` (`/repo/vir/constexpr_wrapper.h` 337-353), three overloads with disjoint constraints. If `f` is a pointer to a
function (`funPtr`), the conversion to it adds a candidate that is worse than these. -/
def callOp (c : Callable V) (funPtr : Bool) (f : V) (args : List (Operand V)) : Outcome (Operand V) :=
  let callable := match c.call f (args.map (·.conv)) with
    | .ub .staticAssert => false
    | _ => true
  if args.all constexprValue && callable && c.isConst f (args.filterMap (·.value)) then do
    let r ← c.call f (args.filterMap (·.value))
    .ok (wrapper r)
  else if args.any (fun a => !constexprValue a) then do
    let r ← c.call f (args.map (·.conv))
    .ok (plain r)
  else if args.isEmpty && !callable then .ok (plain f)
  else if funPtr then do
    let r ← c.call f (args.map (·.conv))
    .ok (plain r)
  else .ub .staticAssert

/-- What `value_type` is for the subscript operator. `/repo/vir/constexpr_wrapper.h` 341-368. -/
inductive Kind where
  | arithmetic
  | pointer
  | otherCompound
deriving DecidableEq

/-- `cw<v>[i]` (`/repo/vir/constexpr_wrapper.h` 355-371), with one index that is not a pointer: overloads for compound types only.
Where the result is no constant the first one is dropped; the conversion of `v` to a pointer then allows the built-in subscript. -/
def indexOp (c : Callable V) (kind : Kind) (v : V) (i : Operand V) : Outcome (Operand V) :=
  match kind, i.value with
  | .arithmetic, _ => .ub .staticAssert
  | _, none => do
    let r ← c.call v [i.conv]
    .ok (plain r)
  | k, some x =>
    if c.isConst v [x] then do
      let r ← c.call v [x]
      .ok (wrapper r)
    else if k = .pointer then do
      let r ← c.call v [i.conv]
      .ok (plain r)
    else .ub .staticAssert

/-- A value in front of `->`: a pointer to an object, or an object of class type that may have an `operator->`, which returns such a
value again. A value of any other type is an object without `operator->` and without members. `/repo/vir/constexpr_wrapper.h` 91-102. -/
inductive ArrowVal where
  | pointer (target : Nat)
  | object (self : Nat) (isClass : Bool) (arrow : Option ArrowVal)

/-- `x->m` for a value `x` in C++: the object whose member `m` is. The result of `operator->` is used in place of `x` until it is a
pointer. Class types without `operator->` and other types do not have the expression. What `/repo/vir/constexpr_wrapper.h` 91-102 stands for. -/
def arrowMember : ArrowVal → Outcome Nat
  | .pointer o => .ok o
  | .object _ _ none => .ub .staticAssert
  | .object _ _ (some y) => arrowMember y

/-- `cw<x>->m` (`/repo/vir/constexpr_wrapper.h` 91-102): `const auto*` is deduced from what `operator->` of the value returns, which has
to be a pointer. Without such an operator - a pointer has no member functions - the result is the address of the value,
and `m` has to be a member of the value. -/
def arrowOp : ArrowVal → Outcome Nat
  | .object _ _ (some (.pointer o)) => .ok o
  | .object _ _ (some (.object ..)) => .ub .staticAssert
  | .object self isClass none => if isClass then .ok self else .ub .staticAssert
  | .pointer _ => .ub .staticAssert

/-- An expression in the language. Operators of `/repo/vir/constexpr_wrapper.h` 104-313. -/
inductive Expr (V : Type) where
  | leaf (t : Operand V)
  | un (op : V → Outcome V) (e : Expr V)
  | bin (op : V → V → Outcome V) (a b : Expr V)

/-- The type and value the compiler gives to an expression. `/repo/vir/constexpr_wrapper.h` 104-313. -/
def compile : Expr V → Outcome (Operand V)
  | .leaf t => .ok t
  | .un op e => do
    let t ← compile e
    unary op t
  | .bin op a b => do
    let s ← compile a
    let t ← compile b
    binary op s t

end Vir.Cw
