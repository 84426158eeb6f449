import Verif.Model.StructSize
import Verif.Model.StructReflect

/-!
# Which numbers of initialisers a class accepts (`/repo/vir/struct_reflect.h` 28-70)

The language rule for aggregate initialisation is modelled on lists of elements. What a single element (a base class or a
data member) accepts depends on its type and is a parameter.
-/

namespace Vir.StructMembers
open StructReflect (Obj Ref)

/-- What the compiler knows about one element of an aggregate: whether `any_empty_base_of<T>()` initialises it, whether
`{anything_but_base_of<T>()}` does, and whether `{}` (or its default member initialiser) does. An element of reference type
needs an initialiser; an empty aggregate accepts `{}` only, since the list would have more initialisers than there are
elements. `/repo/vir/struct_reflect.h` 29-65. -/
structure Element where
  fromEmptyBase : Bool := false
  braced : Bool := true
  dflt : Bool := true
deriving DecidableEq, Repr

/-- A direct base class: whether it is empty, whether `{anything_but_base_of<T>()}` initialises it (the conversion of
`anything_but_base_of` excludes the base itself, `/repo/vir/struct_reflect.h` 30-39; a base that is an aggregate with members
accepts an initialiser for its first member), and whether `{}` does. Initialising a non-empty base from
`any_empty_base_of` (by way of a constructor or of brace elision) is not modelled. -/
structure Base where
  empty : Bool := true
  braced : Bool := false
  dflt : Bool := true
deriving DecidableEq, Repr

/-- An aggregate class (or an array: no bases, all members of one type). `/repo/vir/struct_reflect.h` 28-117. -/
structure Class where
  bases : List Base := []
  members : List Element

/-- The elements of an aggregate in the order of initialisation: first the bases, then the members. `any_empty_base_of`
converts to the empty bases (`/repo/vir/struct_reflect.h` 41-47). -/
def Class.elements (T : Class) : List Element :=
  T.bases.map (fun b => ⟨b.empty, b.braced, b.dflt⟩) ++ T.members

/-- An initialiser clause of `brace_constructible_impl` (`/repo/vir/struct_reflect.h` 49-65). -/
inductive Clause where
  | emptyBase
  | braced
deriving DecidableEq, Repr

/-- Whether the clause initialises the element. `/repo/vir/struct_reflect.h` 51-65. -/
def Clause.initialises : Clause → Element → Bool
  | .emptyBase, e => e.fromEmptyBase
  | .braced, e => e.braced

/-- Aggregate initialisation: one clause per element in order, at most as many clauses as elements, and the elements without
clause are initialised from `{}`. `/repo/vir/struct_reflect.h` 49-70. -/
def aggregateInit : List Clause → List Element → Bool
  | [], es => es.all (·.dflt)
  | _ :: _, [] => false
  | c :: cs, e :: es => c.initialises e && aggregateInit cs es

/-- `aggregate_with_n_members<T, n>` (`/repo/vir/struct_reflect.h` 49-70): zero to three `any_empty_base_of<T>()` followed by `n`
braced `anything_but_base_of<T>()`. -/
def Class.accepts (T : Class) (n : Nat) : Bool :=
  [0, 1, 2, 3].any fun k => aggregateInit (List.replicate k .emptyBase ++ List.replicate n .braced) T.elements

/-- `struct_size_v<T>` of an aggregate (`/repo/vir/struct_reflect.h` 72-117, 427-428). -/
def structSizeOf (T : Class) (sizeofT : Nat) : Outcome Nat := StructSize.structSizeV T.accepts sizeofT

/-- `struct_get<n>(obj)` for an object of type `T` (`/repo/vir/struct_reflect.h` 168-184, 224-231, 255-262, 436-443). The specialization
is chosen by `struct_size_v<T>`; the members of `o` are what a structured binding of the object names. -/
def structGetOf (T : Class) (sizeofT n : Nat) (o : Obj) : Outcome Ref := do
  let total ← structSizeOf T sizeofT
  if n < total then
    match StructReflect.namesFor total with
    | none => .ub .staticAssert
    | some names => do
      let env ← StructReflect.bindNames names o.members o.isConst
      let rs ← StructReflect.forwardAsTuple env names
      let r ← (match rs[n]? with | some r => Outcome.ok r | none => .ub .staticAssert)
      if total = 1 ∧ (o.isConst ∨ o.isRvalue) then .ok { r with isConst := true }
      else .ok r
  else .ub .staticAssert

/-- The type of a member of a plain struct: arithmetic (or an enumeration or pointer), or again a plain struct. The members in `/repo/vir/struct_reflect.h` 28-117. -/
inductive Field where
  | arith
  | struct (fields : List Field)

/-- What such a member accepts. `{anything}` initialises the first member of a struct and leaves the others to `{}`; for an empty
struct there is no such member. `/repo/vir/struct_reflect.h` 29-65. -/
def Field.element : Field → Element
  | .arith => {}
  | .struct [] => { braced := false }
  | .struct (_ :: _) => {}

/-- The plain struct with the given members. `/repo/vir/struct_reflect.h` 28-117. -/
def plainStruct (fields : List Field) : Class := { members := fields.map Field.element }

end Vir.StructMembers
