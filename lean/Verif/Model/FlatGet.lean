import Verif.Outcome

/-!
# Members of nested aggregates (`/repo/vir/simdize.h` 221-295)

An aggregate is a tree: `leaf` is an object that is not a `reflectable_struct`, `node` one that is, with its members. The same
trees stand for types and for objects. Templates are instantiated by the compiler; what is ill-formed is `ub staticAssert`.
-/

namespace Vir.Flat

/-- An object (or a type) as the reflection sees it. The aggregates of `/repo/vir/simdize.h` 225-298. -/
inductive Agg (α : Type) where
  | leaf (a : α)
  | node (members : List (Agg α))

mutual
/-- `flat_member_count` (`/repo/vir/simdize.h` 225-248). -/
def count {α : Type} : Agg α → Nat
  | .leaf _ => 1
  | .node cs => countL cs
/-- The fold over the members (`/repo/vir/simdize.h` 242-248). For a struct without members the fold is ill-formed; the model has
zero, so that the count is total. -/
def countL {α : Type} : List (Agg α) → Nat
  | [] => 0
  | c :: cs => count c + countL cs
end

/-- `flat_get<I, Offset>(s)` (`/repo/vir/simdize.h` 275-298); `fuel` bounds the instantiation depth. A member that is not
reflectable does not satisfy the constraint of the recursive call. -/
def flatGet {α : Type} : (fuel : Nat) → (i offset : Nat) → Agg α → Outcome (Agg α)
  | 0, _, _, _ => .ub .diverge
  | _ + 1, _, _, .leaf _ => .ub .staticAssert
  | fuel + 1, i, offset, .node cs =>
    if count (.node cs) = cs.length then
      if offset = 0 then
        match cs[i]? with
        | some c => .ok c
        | none => .ub .staticAssert
      else .ub .staticAssert
    else if count (.node cs) < cs.length then .ub .staticAssert
    else match cs[offset]? with
      | none => .ub .staticAssert
      | some c =>
        let size := count c
        if i < size then flatGet fuel i 0 c
        else flatGet fuel (i - size) size (.node cs)

/-- `flat_element<I, T>` (`/repo/vir/simdize.h` 250-273). -/
def flatElement {α : Type} : (fuel : Nat) → (i : Nat) → Agg α → Outcome (Agg α)
  | 0, _, _ => .ub .diverge
  | _ + 1, i, .leaf a => if i = 0 then .ok (.leaf a) else .ub .staticAssert
  | fuel + 1, i, .node cs =>
    if count (.node cs) = cs.length then
      match cs[i]? with
      | some c => .ok c
      | none => .ub .staticAssert
    else match cs[0]? with
      | none => .ub .staticAssert
      | some c =>
        if cs.length < count (.node cs) ∧ i < count c then flatElement fuel i c else .ub .staticAssert

end Vir.Flat
