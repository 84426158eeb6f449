import Verif.Model.FlatGet
import Verif.Model.Simd

/-!
# Values of simdized structs: `simd_tuple` and `vectorized_struct` (`/repo/vir/simdize.h` 366-512, 516-578, 932-1002)

A struct is a tree (`Flat.Agg`), a simdized struct a tree with a vector of lanes at every leaf. Loads and stores of struct
templates via permutations are in `Verif/Model/Simdize.lean`.
-/

namespace Vir.SimdTuple
open Flat Simd

variable {α β : Type}

/-- A scalar (to be broadcast) or a simd. The members of `/repo/vir/simdize.h` 405-419. -/
inductive Arg (β : Type) where
  | scalar (b : β)
  | vec (v : List β)
deriving DecidableEq

/-- The constructor of the element type: a broadcast (`/repo/vir/simd.h` 1574-1579), or the conversion from a simd with the same
number of lanes; simds of other widths do not convert. `cvt` is the conversion of the values. -/
def constructLeaf (n : Nat) (cvt : β → α) : Arg β → Outcome (List α)
  | .scalar b => gen n fun _ => .ok (cvt b)
  | .vec v => if v.length = n then gen n fun i => do
      let b ← at' v i
      .ok (cvt b)
    else .ub .staticAssert

mutual
/-- `simd_tuple(const U& init)` (`/repo/vir/simdize.h` 405-419), `vectorized_struct(const U& init)` (557-569), and the constructors from one argument per member (390-398,
545-550): every element is constructed from the corresponding member of `init`. `ty` is the struct type, with the conversion of the values at every leaf; a
member that is itself simdized is constructed the same way. The numbers of members have to agree (`requires`). -/
def construct (n : Nat) : (ty : Agg (β → α)) → (init : Agg (Arg β)) → Outcome (Agg (List α))
  | .leaf f, .leaf a => do
    let v ← constructLeaf n f a
    .ok (.leaf v)
  | .node ts, .node is => do
    let vs ← constructL n ts is
    .ok (.node vs)
  | _, _ => .ub .staticAssert
/-- The expansion over the members (`/repo/vir/simdize.h` 416-418). -/
def constructL (n : Nat) : (tys : List (Agg (β → α))) → (inits : List (Agg (Arg β))) → Outcome (List (Agg (List α)))
  | [], [] => .ok []
  | t :: ts, i :: is => do
    let v ← construct n t i
    let vs ← constructL n ts is
    .ok (v :: vs)
  | _, _ => .ub .staticAssert
end

mutual
/-- `simd_tuple::operator[](i)` (`/repo/vir/simdize.h` 444-451): the struct made of element `i` of every member. -/
def subscript (i : Nat) : Agg (List α) → Outcome (Agg α)
  | .leaf v => do
    let a ← at' v i
    .ok (.leaf a)
  | .node vs => do
    let as ← subscriptL i vs
    .ok (.node as)
/-- The expansion over the members (`/repo/vir/simdize.h` 448-450). -/
def subscriptL (i : Nat) : List (Agg (List α)) → Outcome (List (Agg α))
  | [] => .ok []
  | v :: vs => do
    let a ← subscript i v
    let as ← subscriptL i vs
    .ok (a :: as)
end

/-- `vectorized_struct::operator[](i)` (`/repo/vir/simdize.h` 571-577): `T{flat_get<Is>(*this)[i]...}`. Only structs whose members
are all simds occur here (for others there is no `vectorized_struct`, C60), so no braces are elided. -/
def flatSubscript (i : Nat) (v : Agg (List α)) : Outcome (Agg α) := do
  let rec go : (k : Nat) → Outcome (List (Agg α))
    | 0 => .ok []
    | k + 1 => do
      let m ← flatGet (count v + 1) (count v - (k + 1)) 0 v
      let a ← (match m with
        | .leaf l => do
          let a ← at' l i
          Outcome.ok (Agg.leaf a)
        | .node _ => .ub .staticAssert)
      let as ← go k
      .ok (a :: as)
  let as ← go (count v)
  .ok (.node as)

/-- `simd_tuple::operator U()` (`/repo/vir/simdize.h` 421-434): the struct with the members converted to the element types of `U`;
here with `U` a struct of simds. -/
def toStruct (v : Agg (List α)) : Agg (Arg α) :=
  match v with
  | .leaf l => .leaf (.vec l)
  | .node vs => .node (go vs)
where
  /-- the expansion over the members -/
  go : List (Agg (List α)) → List (Agg (Arg α))
    | [] => []
    | v :: vs => toStruct v :: go vs

/-- `get<I>(tup)` (`/repo/vir/simdize.h` 501-511, 986-1000). -/
def getMember (i : Nat) : Agg (List α) → Outcome (Agg (List α))
  | .leaf _ => .ub .staticAssert
  | .node vs => match vs[i]? with
    | some v => .ok v
    | none => .ub .staticAssert

/-- The member number `m` of the struct at position `i` of an array. `/repo/vir/simdize.h` 458-479. -/
def memberAt (mem : List (Agg α)) (i m : Nat) : Outcome (Agg α) := do
  let s ← rd mem i
  match s with
  | .leaf _ => .ub .staticAssert
  | .node cs => match cs[m]? with
    | some c => .ok c
    | none => .ub .staticAssert

/-- What the generator returns converts to the element type if it is a scalar. `/repo/vir/simdize.h` 405-419. -/
def scalarOf : Agg α → Outcome α
  | .leaf a => .ok a
  | .node _ => .ub .staticAssert

/-- `simd_tuple(it)` and `simd_tuple::copy_from(it)` (`/repo/vir/simdize.h` 454-479): every element is constructed from the
generator `[&](size_t i) { return struct_get<Is>(it[i]); }`. A simd has a generator constructor, a simdized struct has none: the
call is ill-formed if a member is a struct. `ty` is the struct type. -/
def copyFrom (n : Nat) (ty : Agg Unit) (mem : List (Agg α)) (off : Nat) : Outcome (Agg (List α)) :=
  match ty with
  | .leaf _ => .ub .staticAssert
  | .node ts =>
    if ts.all fun | .leaf _ => true | .node _ => false then do
      let vs ← go ts.length 0
      .ok (.node vs)
    else .ub .staticAssert
where
  /-- the expansion over the members -/
  go : Nat → Nat → Outcome (List (Agg (List α)))
    | 0, _ => .ok []
    | c + 1, m => do
      let v ← gen n fun i => do
        let c ← memberAt mem (off + i) m
        scalarOf c
      let vs ← go c (m + 1)
      .ok (.leaf v :: vs)

/-- `simd_tuple::copy_to(it)` (`/repo/vir/simdize.h` 481-493): `it[i] = operator[](i)`. -/
def copyTo (n : Nat) (v : Agg (List α)) (mem : List (Agg α)) (off : Nat) : Outcome (List (Agg α)) :=
  forUp (fun i m => do
    let s ← subscript i v
    wr m (off + i) s) n 0 mem

/-- `a op b` for a `vectorized_struct` `a` and a struct `b` of scalars and simds (`/repo/vir/simdize.h` 932-960): `b` converts to the
type of `a` (557-569), then the operator of the base type is called, which the user wrote for the struct template with simds as
template arguments. -/
def opMixed {γ : Type} (n : Nat) (ty : Agg (β → α)) (opV : Agg (List α) → Agg (List α) → Outcome γ) (a : Agg (List α))
    (b : Agg (Arg β)) : Outcome γ := do
  let b ← construct n ty b
  opV a b

end Vir.SimdTuple
