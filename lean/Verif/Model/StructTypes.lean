import Verif.Model.StructReflect

/-!
# Types of the reflection of aggregates (`/repo/vir/struct_reflect.h` 119-372, 384-395, 436-525)

`struct_element_t`, `as_tuple_t` and `as_pair_t` name types; `struct_get`, `to_tuple` and `to_pair` have them as results. Types are
modelled with their `const` and `volatile` and as references; what they are otherwise is a number.
-/

namespace Vir.StructTypes

/-- An object type: its unqualified type and its qualifiers. The types in `/repo/vir/struct_reflect.h` 119-372. -/
structure Ty where
  base : Nat
  c : Bool := false
  v : Bool := false
deriving DecidableEq, Repr

/-- Object type, lvalue reference or rvalue reference. The types in `/repo/vir/struct_reflect.h` 384-395. -/
inductive Kind
  | obj
  | lval
  | rval
deriving DecidableEq, Repr

/-- A non-static data member: its declared type (`Ty` and `Kind`) and `mutable`. The members in `/repo/vir/struct_reflect.h` 119-372. -/
structure Member where
  ty : Ty
  kind : Kind := .obj
  isMutable : Bool := false
deriving DecidableEq, Repr

/-- The template argument `T` in `as_tuple_t<T>` etc. is the class with these qualifiers, or a reference to it. The parameters of
`/repo/vir/struct_reflect.h` 436-525. -/
structure Arg where
  c : Bool := false
  v : Bool := false
  kind : Kind := .obj
deriving DecidableEq, Repr

/-- The type of the lvalue `e.m` where `e` is an object with these qualifiers ([expr.ref]): a member that is a reference names what it
refers to, the others get the qualifiers of the object, except that `mutable` members do not get `const`. It is the type of the name in
a structured binding ([dcl.struct.bind]). Structured bindings in `/repo/vir/struct_reflect.h` 134-263. -/
def access (c v : Bool) (m : Member) : Ty :=
  if m.kind = .obj then ⟨m.ty.base, m.ty.c || (c && !m.isMutable), m.ty.v || v⟩ else m.ty

/-- The type of an identifier. Structured bindings in `/repo/vir/struct_reflect.h` 134-263. -/
def typeOf {A : Type} (env : List (Nat × A)) (x : Nat) : Outcome A :=
  match env.lookup x with
  | some t => .ok t
  | none => .ub .staticAssert

/-- `auto&& [names...] = obj;` followed by `forward_as_tuple(names...)`: the types the lvalue references in the resulting tuple refer
to, with the names of the specialization for this number of members. `/repo/vir/struct_reflect.h` 134-263. -/
def bindTypes (ms : List Member) (c v : Bool) : Outcome (List Ty) :=
  match StructReflect.namesFor ms.length with
  | none => .ub .staticAssert
  | some names =>
    if names.length ≠ ms.length ∨ ¬ names.Nodup then .ub .staticAssert
    else StructReflect.forPack (typeOf (names.zip (ms.map (access c v)))) names

/-- The function argument `std::forward<T>(obj)` or `std::declval<T>()` is an lvalue. `/repo/vir/struct_reflect.h` 442, 467, 488. -/
def Arg.isLvalue (a : Arg) : Bool := a.kind == .lval

/-- The type that the result of `struct_get<N>(std::declval<T>())` refers to (`/repo/vir/struct_reflect.h` 168-184, 224-231, 255-262, 436-443).
With one member, `get(T&)` returns `auto&` and is chosen for non-const lvalues; `get(const T&)` returns `const auto&` and does not bind to
volatile rvalues. -/
def structGetType (n : Nat) (ms : List Member) (a : Arg) : Outcome Ty :=
  if n < ms.length then do
    let ts ← bindTypes ms a.c a.v
    let t ← (match ts[n]? with | some t => Outcome.ok t | none => .ub .staticAssert)
    if ms.length ≠ 1 then .ok t
    else if a.isLvalue then (if a.c then .ok { t with c := true } else .ok t)
    else if a.v then .ub .staticAssert
    else .ok { t with c := true }
  else .ub .staticAssert

/-- `struct_element_t<N, T>`: `struct_get` is called with `std::declval<T&>()`, and the reference removed. `/repo/vir/struct_reflect.h` 445-457. -/
def structElement (n : Nat) (ms : List Member) (a : Arg) : Outcome Ty :=
  structGetType n ms { a with kind := .lval }

/-- The element types of the result of `struct_get<Total>().to_tuple(std::declval<T>())`. The parameter is `const U&`, where `U` is `T` without
`const` and reference; such a parameter does not bind to volatile rvalues. The types are those in the result of `to_tuple_ref` for
`declval<U>()`, without references. `/repo/vir/struct_reflect.h` 142-145, 159-166, 198-205, 246-253. -/
def toTupleTypes (ms : List Member) (a : Arg) : Outcome (List Ty) :=
  if a.v && !a.isLvalue then .ub .staticAssert
  else bindTypes ms false a.v

/-- A `std::tuple` or `std::pair` type with qualifiers, or a reference to one. The types in `/repo/vir/struct_reflect.h` 384-395. -/
structure TupleTy where
  elems : List Ty
  c : Bool
  v : Bool
  kind : Kind
deriving DecidableEq, Repr

/-- `copy_cvref<From, To>` for an unqualified `To`. `/repo/vir/struct_reflect.h` 384-395. -/
def copyCvref (a : Arg) (elems : List Ty) : TupleTy :=
  let withConst : TupleTy := if a.c then ⟨elems, true, false, .obj⟩ else ⟨elems, false, false, .obj⟩
  let withVolatile : TupleTy := if a.v then { withConst with v := true } else withConst
  if a.kind = .lval then { withVolatile with kind := .lval }
  else if a.kind = .rval then { withVolatile with kind := .rval }
  else withVolatile

/-- `as_tuple_t<T>`. `/repo/vir/struct_reflect.h` 481-496. -/
def asTuple (ms : List Member) (a : Arg) : Outcome TupleTy := do
  let ts ← toTupleTypes ms a
  .ok (copyCvref a ts)

/-- `as_pair_t<T>`: only for two members. `to_pair` has the same form as `to_tuple`. `/repo/vir/struct_reflect.h` 207-222, 516-530. -/
def asPair (ms : List Member) (a : Arg) : Outcome TupleTy :=
  if ms.length ≠ 2 then .ub .staticAssert
  else do
    let ts ← toTupleTypes ms a
    .ok (copyCvref a ts)

/-- A `std::tuple` as an argument of the reflection: the structured binding is of type `tuple_element_t<i, E>`, which is the element type
with the qualifiers of the tuple. `std::get` does not exist for volatile tuples, so only `a.v = false` makes sense with these members.
Structured bindings in `/repo/vir/struct_reflect.h` 134-263. -/
def tupleMembers (ts : List Ty) : List Member := ts.map fun t => ⟨t, .obj, false⟩

end Vir.StructTypes
