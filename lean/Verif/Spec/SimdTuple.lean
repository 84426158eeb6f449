import Verif.Model.SimdTuple

/-!
# What simdized structs mean
-/

namespace Vir.Spec
open Flat SimdTuple

variable {α β : Type}

mutual
/-- `s` is what lane `i` of a simdized struct constructed from `init` should be: every scalar of `init` as it is, lane `i` of every
simd of `init`, converted to the type of the member. -/
def LaneIs (i : Nat) : Agg (β → α) → Agg (Arg β) → Agg α → Prop
  | .leaf f, .leaf (.scalar b), .leaf a => a = f b
  | .leaf f, .leaf (.vec v), .leaf a => ∃ b, v[i]? = some b ∧ a = f b
  | .node ts, .node is, .node as => LaneIsL i ts is as
  | _, _, _ => False
/-- Member by member. -/
def LaneIsL (i : Nat) : List (Agg (β → α)) → List (Agg (Arg β)) → List (Agg α) → Prop
  | [], [], [] => True
  | t :: ts, x :: xs, a :: as => LaneIs i t x a ∧ LaneIsL i ts xs as
  | _, _, _ => False
end

mutual
/-- `init` has the structure of the type and its simds have `n` lanes. -/
def InitFits (n : Nat) : Agg (β → α) → Agg (Arg β) → Prop
  | .leaf _, .leaf (.scalar _) => True
  | .leaf _, .leaf (.vec v) => v.length = n
  | .node ts, .node is => InitFitsL n ts is
  | _, _ => False
/-- Member by member. -/
def InitFitsL (n : Nat) : List (Agg (β → α)) → List (Agg (Arg β)) → Prop
  | [], [] => True
  | t :: ts, x :: xs => InitFits n t x ∧ InitFitsL n ts xs
  | _, _ => False
end

mutual
/-- Every member has `n` lanes, at any depth. -/
def Wide (n : Nat) : Agg (List α) → Prop
  | .leaf v => v.length = n
  | .node vs => WideL n vs
/-- Member by member. -/
def WideL (n : Nat) : List (Agg (List α)) → Prop
  | [] => True
  | v :: vs => Wide n v ∧ WideL n vs
end

mutual
/-- The type of a simdized struct, with conversions that do nothing. -/
def sameTy : Agg (List α) → Agg (α → α)
  | .leaf _ => .leaf id
  | .node vs => .node (sameTyL vs)
/-- Member by member. -/
def sameTyL : List (Agg (List α)) → List (Agg (α → α))
  | [] => []
  | v :: vs => sameTy v :: sameTyL vs
end

/-- A struct with `k` members, none of which is a struct. -/
def FlatStruct (k : Nat) (s : Agg α) : Prop := ∃ as : List α, as.length = k ∧ s = .node (as.map .leaf)

/-- The user's operator for structs of simds does in every lane what `op` does for structs of scalars. -/
def LaneWiseOp (n : Nat) (opV : Agg (List α) → Agg (List α) → Outcome (Agg (List α))) (op : Agg α → Agg α → Agg α) : Prop :=
  ∀ a b, Wide n a → Wide n b → ∃ r, opV a b = .ok r ∧ ∀ i x y, i < n → subscript i a = .ok x → subscript i b = .ok y →
    subscript i r = .ok (op x y)

end Vir.Spec
