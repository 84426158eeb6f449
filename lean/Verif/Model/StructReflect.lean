import Verif.Model.StructGetTable

/-!
# Access to the members of an aggregate (`/repo/vir/struct_reflect.h` 119-370, 436-516)

Memory is a list of cells, a member is one cell (its type is not modelled), a reference is the number of a cell together with
the constness of the type it refers to. Tuple-like types behave like aggregates: their structured bindings name the results of
`get<i>`, which are references to the elements. `volatile` is not modelled.
-/

namespace Vir.StructReflect

variable {α : Type}

/-- A non-static data member: its cell (the cell referred to if it is a reference), whether its type (the type referred to) is
const, whether it is a reference, and whether it can be copied (arrays and move-only types cannot). The members in `/repo/vir/struct_reflect.h` 119-372. -/
structure Member where
  cell : Nat
  isConst : Bool := false
  isRef : Bool := false
  copyable : Bool := true
deriving DecidableEq, Repr

/-- An expression naming an object: its members in the order of declaration, whether its type is const, and whether it is an
rvalue. The argument of `/repo/vir/struct_reflect.h` 119-372. -/
structure Obj where
  members : List Member
  isConst : Bool := false
  isRvalue : Bool := false

/-- An lvalue reference. The result of `/repo/vir/struct_reflect.h` 119-372. -/
structure Ref where
  cell : Nat
  isConst : Bool
deriving DecidableEq, Repr

/-- `obj.m` as an lvalue: the constness of the object reaches members but not what reference members refer to. Structured bindings in `/repo/vir/struct_reflect.h` 134-263. -/
def access (objConst : Bool) (m : Member) : Ref := ⟨m.cell, m.isConst || (objConst && !m.isRef)⟩

/-- `auto&& [names...] = obj;`: the k-th name is the k-th member. The number of names must be the number of members and the names
must be different, otherwise the declaration is ill-formed. Structured bindings in `/repo/vir/struct_reflect.h` 134-263. -/
def bindNames (names : List Nat) (members : List Member) (objConst : Bool) : Outcome (List (Nat × Ref)) :=
  if names.length ≠ members.length ∨ ¬ names.Nodup then .ub .staticAssert
  else .ok (names.zip (members.map (access objConst)))

/-- The meaning of an identifier. Structured bindings in `/repo/vir/struct_reflect.h` 134-263. -/
def useName (env : List (Nat × Ref)) (x : Nat) : Outcome Ref :=
  match env.lookup x with
  | some r => .ok r
  | none => .ub .staticAssert

/-- An expression for every element of a pack. `/repo/vir/struct_reflect.h` 134-146. -/
def forPack {A B : Type} (f : A → Outcome B) : List A → Outcome (List B)
  | [] => .ok []
  | a :: l => do
    let b ← f a
    let bs ← forPack f l
    .ok (b :: bs)

/-- `std::forward_as_tuple(names...)`. `/repo/vir/struct_reflect.h` 156, 195, 243. -/
def forwardAsTuple (env : List (Nat × Ref)) (names : List Nat) : Outcome (List Ref) := forPack (useName env) names

/-- The identifiers of the specialization `detail::struct_get<total>` (`/repo/vir/struct_reflect.h` 134-370). -/
def namesFor : Nat → Option (List Nat)
  | 0 => some []
  | 1 => some [0]
  | 2 => some [0, 1]
  | total => structGetRows.lookup total

/-- The structured binding of the specialization for `obj`'s number of members; without specialization the program is ill-formed. Structured bindings in `/repo/vir/struct_reflect.h` 134-263. -/
def destructure (o : Obj) (objConst : Bool) : Outcome (List Ref) :=
  match namesFor o.members.length with
  | none => .ub .staticAssert
  | some names => do
    let env ← bindNames names o.members objConst
    forwardAsTuple env names

/-- `to_tuple_ref(obj)` (`/repo/vir/struct_reflect.h` 137-140, 151-157, 190-196, 238-244, 473-479). The parameter is an lvalue
inside the function. -/
def toTupleRef (o : Obj) : Outcome (List Ref) := destructure o o.isConst

/-- `to_pair_ref(obj)` (`/repo/vir/struct_reflect.h` 207-213, 510-514). -/
def toPairRef (o : Obj) : Outcome (Ref × Ref) :=
  if o.members.length ≠ 2 then .ub .staticAssert
  else do
    let rs ← toTupleRef o
    match rs with
    | [a, b] => .ok (a, b)
    | _ => .ub .staticAssert

/-- Reading a cell. Reading through the result of `/repo/vir/struct_reflect.h` 436-516. -/
def readRef (mem : List α) (r : Ref) : Outcome α :=
  match mem[r.cell]? with
  | some v => .ok v
  | none => .ub .oob

/-- Assigning through a reference; ill-formed if it is const. Assigning through the result of `/repo/vir/struct_reflect.h` 436-516. -/
def writeRef (mem : List α) (r : Ref) (v : α) : Outcome (List α) :=
  if r.isConst then .ub .staticAssert
  else if r.cell < mem.length then .ok (mem.set r.cell v)
  else .ub .oob

/-- `to_tuple(obj)` (`/repo/vir/struct_reflect.h` 142-145, 159-166, 198-205, 246-253, 462-468): the elements of the result, each
with the constness of its type (`remove_ref_in_tuple` of the type of `to_tuple_ref`, 123-132, called with the type of the object
without const). The members are copied, whatever the value category of `obj`. -/
def toTuple (o : Obj) (mem : List α) : Outcome (List (α × Bool)) := do
  let ty ← destructure o false
  let rs ← destructure o true
  if o.members.all (·.copyable) then do
    let vs ← forPack (readRef mem) rs
    .ok (vs.zip (ty.map (·.isConst)))
  else .ub .staticAssert

/-- `to_pair(obj)` (`/repo/vir/struct_reflect.h` 215-222, 501-505). -/
def toPair (o : Obj) (mem : List α) : Outcome ((α × Bool) × (α × Bool)) :=
  if o.members.length ≠ 2 then .ub .staticAssert
  else do
    let vs ← toTuple o mem
    match vs with
    | [a, b] => .ok (a, b)
    | _ => .ub .staticAssert

/-- `struct_get<N>(obj)` (`/repo/vir/struct_reflect.h` 168-184 for one member, 224-231 for two, 255-262 for more, 436-443). With one
member there are two overloads: `get(T&)` for non-const lvalues and `get(const T&)`, which returns a reference to const, for
everything else. -/
def structGet (n : Nat) (o : Obj) : Outcome Ref :=
  if n < o.members.length then do
    let rs ← destructure o o.isConst
    let r ← (match rs[n]? with | some r => Outcome.ok r | none => .ub .staticAssert)
    if o.members.length = 1 ∧ (o.isConst ∨ o.isRvalue) then .ok { r with isConst := true }
    else .ok r
  else .ub .staticAssert

end Vir.StructReflect
