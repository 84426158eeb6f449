import Verif.Model.Transform

/-!
# Specification of `transform`

What a caller of `transform` relies on, without reference to how the algorithm cuts the ranges into chunks.
-/

namespace Vir.Spec

variable {α : Type}

/-- The precondition of `transform` on its ranges: there is at least one input, all ranges lie inside memory,
and every input range starts at or after the output range or ends before it begins. (So the output may coincide
with an input, start before it, or be disjoint from it.) -/
structure RangesOk (t : TEnv) (mem : List α) : Prop where
  ins_ne : t.ins ≠ []
  ins_le : ∀ a ∈ t.ins, a + t.n ≤ mem.length
  out_le : t.out + t.n ≤ mem.length
  alias : ∀ a ∈ t.ins, t.out ≤ a ∨ a + t.n ≤ t.out

/-- `w` consecutive elements of memory, starting at `a`. -/
def slice (mem : List α) (a w : Nat) : List α := (mem.drop a).take w

/-- Memory with the elements from `d` on replaced by `ys`. -/
def writeAt (mem : List α) (d : Nat) (ys : List α) : List α :=
  mem.take d ++ ys ++ mem.drop (d + ys.length)

/-- The results of invoking `op` on the chunks of widths `ws` of the ranges starting at `ins`, beginning at
position `p`. -/
def outs {β : Type} (op : VecOp α β) (ins : List Nat) (mem : List α) : Nat → List Nat → List β
  | _, [] => []
  | p, w :: ws => op.call (ins.map fun a => slice mem (a + p) w) ++ outs op ins mem (p + w) ws

/-- `op` acts on every lane separately: lane `i` of the result is `g` of the lanes `i` of the arguments. -/
def LaneWise {β : Type} (op : VecOp α β) (g : List α → β) : Prop :=
  ∀ w args, args ≠ [] → (∀ a ∈ args, a.length = w) →
    op.call args = (List.range w).map fun i => g (args.filterMap (·[i]?))

end Vir.Spec
