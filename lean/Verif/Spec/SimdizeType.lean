import Verif.Model.SimdizeType
import Mathlib.Data.List.Forall2

/-!
# What the documentation of `simdize` promises (`/repo/vir/simdize.h` 1003-1018)

Only the type language of the model is used here, none of its metafunctions.
-/

namespace Vir.SimdizeTy

/-- A data member that is not itself a struct. -/
inductive Leaf where
  | scalar (k : Nat)
  | opaque (k : Nat)
  | simd (k n : Nat)
deriving DecidableEq

mutual
/-- The data members of a type that are no structs, depth first, in declaration order. -/
def Ty.leaves : Ty → List Leaf
  | .scalar k => [.scalar k]
  | .opaque k => [.opaque k]
  | .agg _ ms => leavesL ms
  | .spec _ _ ms _ => leavesL ms
  | .simd k n => [.simd k n]
  | .simdTuple es _ => leavesL es
  | .vstruct ms _ => leavesL ms
/-- The same for a list of members. -/
def leavesL : List Ty → List Leaf
  | [] => []
  | c :: cs => c.leaves ++ leavesL cs
end

/-- The data-parallel counterpart of a member: a scalar becomes a `simd` of `n` such scalars. -/
def Leaf.vec (n : Nat) : Leaf → Leaf
  | .scalar k => .simd k n
  | l => l

/-- The largest native width among the scalars. -/
def widest (P : Plat) (ls : List Leaf) : Nat :=
  ls.foldr (fun l n => match l with
    | .scalar k => max (P.native k) n
    | _ => n) 0

/-- The documented width: `N` if it is non-zero, else the largest native width among the leaves. -/
def docWidth (P : Plat) (t : Ty) (N : Nat) : Nat :=
  if N = 0 then widest P t.leaves else N

mutual
/-- All leaves are scalars and no struct is empty: the types the documentation speaks about. -/
def Ty.Vectorizable : Ty → Prop
  | .scalar _ => True
  | .agg _ ms => ms ≠ [] ∧ VectorizableL ms
  | .spec _ _ ms _ => ms ≠ [] ∧ VectorizableL ms
  | _ => False
/-- The same for all members. -/
def VectorizableL : List Ty → Prop
  | [] => True
  | c :: cs => c.Vectorizable ∧ VectorizableL cs
end

/-- Every scalar of the list has a `simd` of width `n`. -/
def Enabled (P : Plat) (n : Nat) (ls : List Leaf) : Prop :=
  ∀ k, Leaf.scalar k ∈ ls → P.deduces k n = true

mutual
/-- Every struct inside the struct `t` (not `t` itself) can be simdized with its own default width. -/
def Ty.InnerOk (P : Plat) : Ty → Prop
  | .agg _ ms => InnerOkL P ms
  | _ => True
/-- The same for all members, including the members themselves. -/
def InnerOkL (P : Plat) : List Ty → Prop
  | [] => True
  | c :: cs => (Enabled P (widest P c.leaves) c.leaves ∧ c.InnerOk P) ∧ InnerOkL P cs
end

mutual
/-- The type contains no specialization of a class template. -/
def Ty.Plain : Ty → Prop
  | .agg _ ms => PlainL ms
  | .spec .. => False
  | _ => True
/-- The same for all members. -/
def PlainL : List Ty → Prop
  | [] => True
  | c :: cs => c.Plain ∧ PlainL cs
end

mutual
/-- Every class template involved is uniform: instantiating it with simdized arguments simdizes its members. -/
def Ty.Uniform : Ty → Prop
  | .agg _ ms => UniformL ms
  | .spec _ _ ms subst => UniformL ms ∧ ∀ n ts, subst.lookup n = some ts → leavesL ts = (leavesL ms).map (Leaf.vec n)
  | _ => True
/-- The same for all members. -/
def UniformL : List Ty → Prop
  | [] => True
  | c :: cs => c.Uniform ∧ UniformL cs
end

mutual
/-- Every struct that occurs in the type has a member. -/
def Ty.NoEmptyStruct : Ty → Prop
  | .agg _ ms => ms ≠ [] ∧ NoEmptyStructL ms
  | .spec _ _ ms _ => ms ≠ [] ∧ NoEmptyStructL ms
  | .simdTuple es _ => es ≠ [] ∧ NoEmptyStructL es
  | .vstruct ms _ => ms ≠ [] ∧ NoEmptyStructL ms
  | _ => True
/-- The same for all members. -/
def NoEmptyStructL : List Ty → Prop
  | [] => True
  | c :: cs => c.NoEmptyStruct ∧ NoEmptyStructL cs
end

/-- The data members that the library can name one by one: all members of a struct with as many leaves as members, or those of its
first member if that has all of the leaves. -/
inductive Reach : List Ty → List Ty → Prop
  | flat (ms : List Ty) : ms ≠ [] → (leavesL ms).length = ms.length → Reach ms ms
  | wrap (c : Ty) (cs ms ls : List Ty) : (c :: cs).length < c.leaves.length → leavesL cs = [] → c.members = some ms → Reach ms ls →
      Reach (c :: cs) ls

/-- The first of these, if only that one is needed. -/
inductive First : List Ty → Ty → Prop
  | flat (c : Ty) (cs : List Ty) : (leavesL (c :: cs)).length = (c :: cs).length → First (c :: cs) c
  | down (c x : Ty) (cs ms : List Ty) : (c :: cs).length < (leavesL (c :: cs)).length → c.members = some ms → First ms x →
      First (c :: cs) x
  | leaf (c : Ty) (cs : List Ty) : (c :: cs).length < (leavesL (c :: cs)).length → c.members = none → First (c :: cs) c

/-- All types of the list are simdized with the argument `N`, to types of width `w`. -/
def AllSimdize (P : Plat) (N w : Nat) (ts rs : List Ty) : Prop :=
  List.Forall₂ (fun t r => simdize P t N = .ok r) ts rs ∧ ∀ r ∈ rs, r.size = some w

/-- A platform on which native vectors exist. -/
structure Plat.WF (P : Plat) : Prop where
  native_pos : ∀ k, 0 < P.native k
  native_enabled : ∀ k, P.deduces k (P.native k) = true

end Vir.SimdizeTy
