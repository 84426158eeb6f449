import Verif.Outcome

/-!
# A sequence of groups of chunks

What it means to process a range group by group, without reference to how the algorithms find the groups.
-/

namespace Vir.Spec

/-- One group: `k` chunks of `w` elements each, accessed with or without the alignment promise. -/
structure Group where
  w : Nat
  aligned : Bool
  k : Nat
deriving DecidableEq, Repr

/-- Number of elements of a group. -/
def Group.elems (g : Group) : Nat := g.w * g.k

/-- Number of elements of a sequence of groups. -/
def span (gs : List Group) : Nat := (gs.map Group.elems).sum

/-- Process the groups one after the other, the first one at position `p`, every other one where the previous one ended. -/
def runGroups {S : Type} (inv : Group → Nat → S → Outcome S) : Nat → List Group → S → Outcome S
  | _, [], st => .ok st
  | p, g :: gs, st => do
    let st ← inv g p st
    runGroups inv (p + g.elems) gs st

end Vir.Spec
