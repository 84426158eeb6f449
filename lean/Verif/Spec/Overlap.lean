import Verif.Spec.Transform

/-!
# Specification of `transform` on ranges that overlap in any way
-/

namespace Vir.Spec

variable {α : Type}

/-- What `std::transform` does with a scalar operation: from position `p` on, `m` elements, one after the other; each one is computed
from memory as the previous ones have left it. -/
def sequential (g : List α → α) (ins : List Nat) (out : Nat) : Nat → Nat → List α → List α
  | _, 0, mem => mem
  | p, m + 1, mem => sequential g ins out (p + 1) m (mem.set (out + p) (g (ins.filterMap fun a => mem[a + p]?)))

/-- All ranges lie inside memory; they may overlap in any way. -/
structure RangesInside (t : TEnv) (mem : List α) : Prop where
  ins_ne : t.ins ≠ []
  ins_le : ∀ a ∈ t.ins, a + t.n ≤ mem.length
  out_le : t.out + t.n ≤ mem.length

/-- Groups of chunks processed one after the other: `ws` lists the widths of the chunks of every group. All chunks of a group are
loaded before the first result of the group is stored. -/
def groupwise (op : VecOp α α) (ins : List Nat) (out : Nat) : Nat → List (List Nat) → List α → List α
  | _, [], mem => mem
  | p, ws :: gs, mem => groupwise op ins out (p + ws.sum) gs (writeAt mem (out + p) (outs op ins mem p ws))

/-- The largest number of elements that are loaded before a result is stored. -/
def inFlight (e : Env) : Nat := e.size * max 1 e.pol.unrollBy.toNat

end Vir.Spec
