import Verif.Outcome

/-!
# The type mapping of `simdize` (`/repo/vir/simdize.h` 60-355, 1003-1018)

Types are data, metafunctions are functions on them. A failed constraint selects another branch; what the compiler rejects
outside a constraint (a hard error) is `ub staticAssert`.
-/

namespace Vir.SimdizeTy

/-- The element types the platform knows (`/repo/vir/simd_concepts.h` 36-37, `/repo/vir/simd.h` 426-454): `native k` is
`native_simd<k>::size()`, `deduces k n` says that `deduce_t<k, n>` exists and `simd` with it is enabled. -/
structure Plat where
  native : Nat → Nat
  deduces : Nat → Nat → Bool

/-- C++ types as seen by `simdize`. `scalar` is vectorizable, `opaque` neither vectorizable nor reflectable (`bool`,
pointers, classes with private members), `agg` an aggregate or tuple-like type that is no specialization of a class template
over types, `spec` a specialization `Tpl<args...>` with its members and, for every width at which `Tpl` can be
instantiated with simdized arguments, the members of that instantiation. The last three are the data-parallel types:
`simd<k, deduce_t<k, n>>`, `simd_tuple<T, n>` with the elements of its `std::tuple`, and `vectorized_struct<T, n>` with the
members of its base class. Simplification: `const` members, base classes and specializations without template arguments are
not distinguished. The types in `/repo/vir/simdize.h` 29-360. -/
inductive Ty where
  | scalar (k : Nat)
  | opaque (k : Nat)
  | agg (id : Nat) (ms : List Ty)
  | spec (id : Nat) (args ms : List Ty) (subst : List (Nat × List Ty))
  | simd (k n : Nat)
  | simdTuple (elems : List Ty) (n : Nat)
  | vstruct (ms : List Ty) (n : Nat)

/-- The members of a `reflectable_struct` (`/repo/vir/struct_reflect.h` 404-406, 423-443; `std::tuple_size` of the
data-parallel structs: `/repo/vir/simdize.h` 1029-1056). -/
def Ty.members : Ty → Option (List Ty)
  | .agg _ ms => some ms
  | .spec _ _ ms _ => some ms
  | .simdTuple es _ => some es
  | .vstruct ms _ => some ms
  | _ => none

/-- `V::size()`; scalars, opaque types and structs have no such member (`/repo/vir/simdize.h` 384, 540). -/
def Ty.size : Ty → Option Nat
  | .simd _ n => some n
  | .simdTuple _ n => some n
  | .vstruct _ n => some n
  | _ => none

mutual
/-- Equality of types, for `std::same_as`. Aggregates and specializations are nominal. `std::same_as` in `/repo/vir/simdize.h` 326. -/
def Ty.same : Ty → Ty → Bool
  | .scalar a, .scalar b => a == b
  | .opaque a, .opaque b => a == b
  | .agg a _, .agg b _ => a == b
  | .spec a xs _ _, .spec b ys _ _ => a == b && sameL xs ys
  | .simd a n, .simd b m => a == b && n == m
  | .simdTuple xs n, .simdTuple ys m => n == m && sameL xs ys
  | .vstruct xs n, .vstruct ys m => n == m && sameL xs ys
  | _, _ => false
/-- Pointwise equality of lists of types. `std::same_as` in `/repo/vir/simdize.h` 326. -/
def sameL : List Ty → List Ty → Bool
  | [], [] => true
  | x :: xs, y :: ys => Ty.same x y && sameL xs ys
  | _, _ => false
end

mutual
/-- `flat_member_count` (`/repo/vir/simdize.h` 230-248). -/
def Ty.count : Ty → Nat
  | .agg _ ms => countL ms
  | .spec _ _ ms _ => countL ms
  | .simdTuple es _ => countL es
  | .vstruct ms _ => countL ms
  | _ => 1
/-- The fold over the members (`/repo/vir/simdize.h` 242-248). -/
def countL : List Ty → Nat
  | [] => 0
  | c :: cs => c.count + countL cs
end

mutual
/-- `flat_element<I, T>` for a member `T` that is not a struct (`/repo/vir/simdize.h` 253-257), or the next level (270-272). -/
def Ty.flatElement : Ty → Nat → Option Ty
  | .agg _ ms, i => flatElement ms i
  | .spec _ _ ms _, i => flatElement ms i
  | .simdTuple es _, i => flatElement es i
  | .vstruct ms _, i => flatElement ms i
  | t, i => if i = 0 then some t else none
/-- `flat_element<I, T>` (`/repo/vir/simdize.h` 253-272) with the member list of `T` (`std::tuple` for the tuple of
`make_simd_tuple`); `none` if no specialization matches. -/
def flatElement : List Ty → Nat → Option Ty
  | [], _ => none
  | c :: cs, i =>
    if c.count + countL cs = cs.length + 1 then (c :: cs)[i]?
    else if cs.length + 1 < c.count + countL cs ∧ i < c.count then c.flatElement i
    else none
end

mutual
/-- `recursively_vectorizable<T>` (`/repo/vir/simdize.h` 111-135). -/
def Ty.recVec : Ty → Bool
  | .scalar _ => true
  | .agg _ ms => !ms.isEmpty && recVecL ms
  | .spec _ _ ms _ => !ms.isEmpty && recVecL ms
  | _ => false
/-- The conjunction over the members (`/repo/vir/simdize.h` 129-135). -/
def recVecL : List Ty → Bool
  | [] => true
  | c :: cs => c.recVec && recVecL cs
end

/-- The width to use: `N == 0 ? default : N` (`/repo/vir/simdize.h` 109, 345, 353). -/
def width (N d : Nat) : Nat := if N = 0 then d else N

/-- `std::max({size...})` over the member types simdized with width 0 (`/repo/vir/simdize.h` 153-158); a member that was not
simdized has no `size()`, which is a hard error in the initializer of `value`. -/
def maxSize : List Ty → Outcome Nat
  | [] => .ub .staticAssert
  | [t] => match t.size with
    | some n => .ok n
    | none => .ub .staticAssert
  | t :: ts => match t.size with
    | some n => do
      let m ← maxSize ts
      .ok (max n m)
    | none => .ub .staticAssert

/-- All sizes equal to the width (`/repo/vir/simdize.h` 175, 179-202). -/
def allSize (n : Nat) (ts : List Ty) : Bool :=
  ts.all (fun t => t.size == some n)

/-- `test_all_of<is_consistent_struct_vectorization<T>>` (`/repo/vir/simdize.h` 308-327, 336-337): flat members
`0 .. count T - 1` of the tuple of simds and of the substituted template have the same types. -/
def consistent (count : Nat) (tup ts : List Ty) : Bool :=
  (List.range count).all (fun i =>
    match flatElement tup i, flatElement ts i with
    | some l, some r => l.same r
    | _, _ => false)

/-- `vectorizable_struct_template<T>` (`/repo/vir/simdize.h` 330-337), given the default width `d` and the template arguments
and members simdized with it: the arguments have that width (176-202), the tuple of simds exists (164-174), the substituted
template is reflectable with as many members, and the two are consistent. -/
def structTemplate (d : Nat) (as tup ms : List Ty) (subst : List (Nat × List Ty)) : Bool :=
  allSize d as && allSize d tup &&
    match subst.lookup d with
    | none => false
    | some ts => ts.length == ms.length && consistent (countL ms) tup ts

mutual
/-- `simdize_impl<T, N>::type` (`/repo/vir/simdize.h` 100-109, 344-353, with `default_simdize_size` 137-162,
`make_simd_tuple` 168-178, `simdize_template_arguments` 176-220, `vectorizable_struct_template` 330-337, and the
constraints and member types of `simd_tuple` 362-385 and `vectorized_struct` 516-540). -/
def simdizeImpl (P : Plat) : Ty → Nat → Outcome Ty
  | .scalar k, N =>
    let n := width N (P.native k)
    if P.deduces k n then .ok (.simd k n) else .ok (.scalar k)
  | .agg id ms, N =>
    -- default_simdize_size<T> is declared only for recursively vectorizable types
    if !(Ty.agg id ms).recVec then .ok (.agg id ms)
    else do
      let ds ← simdizeList P ms 0
      let d ← maxSize ds
      let es ← simdizeList P ms (width N d)
      -- otherwise simd_tuple<T, N> is the deleted primary template
      if allSize (width N d) es then .ok (.simdTuple es (width N d)) else .ok (.agg id ms)
  | .spec id args ms subst, N =>
    if !(Ty.spec id args ms subst).recVec then .ok (.spec id args ms subst)
    else do
      let ds ← simdizeList P ms 0
      let d ← maxSize ds
      -- vectorizable_struct_template<T>
      let as ← simdizeList P args d
      let tup ← simdizeList P ms d
      let w := width N d
      if structTemplate d as tup ms subst then do
        let aw ← simdizeList P args w
        -- otherwise vectorized_struct<T, N> is the deleted primary template
        if allSize w aw then
          match subst.lookup w with
          | none => .ok (.spec id args ms subst)
          | some base => do
            let es ← simdizeList P ms w
            -- tuple_type and mask_type of the class
            if allSize w es && ((flatElement base 0).bind Ty.size).isSome then
              .ok (.vstruct base w)
            else .ub .staticAssert
        else .ok (.spec id args ms subst)
      else do
        let es ← simdizeList P ms w
        if allSize w es then .ok (.simdTuple es w) else .ok (.spec id args ms subst)
  | t, _ => .ok t
/-- `simdize_impl` of all members or template arguments. The pack expansions in `/repo/vir/simdize.h` 155, 173, 181. -/
def simdizeList (P : Plat) : List Ty → Nat → Outcome (List Ty)
  | [], _ => .ok []
  | t :: ts, N => do
    let r ← simdizeImpl P t N
    let rs ← simdizeList P ts N
    .ok (r :: rs)
end

/-- `simdize<T, N>` (`/repo/vir/simdize.h` 1018-1019). -/
def simdize (P : Plat) (t : Ty) (N : Nat) : Outcome Ty := simdizeImpl P t N

mutual
/-- `simdize_size<T>::value` (`/repo/vir/simdize.h` 29-51). -/
def simdizeSize : Ty → Outcome Nat
  | .simd _ n => .ok n
  | .agg _ ms => sizeOfMembers ms
  | .spec _ _ ms _ => sizeOfMembers ms
  | .simdTuple es _ => sizeOfMembers es
  | .vstruct ms _ => sizeOfMembers ms
  | .scalar _ => .ok 0
  | .opaque _ => .ok 0
/-- The branch for structs (`/repo/vir/simdize.h` 41-48). Without members the fold is true and `struct_element_t<0, T>` is ill-formed,
outside of any constraint. -/
def sizeOfMembers : List Ty → Outcome Nat
  | [] => .ub .staticAssert
  | c :: cs => do
    let n ← simdizeSize c
    let same ← allEqualTo n cs
    .ok (if same then n else 0)
/-- The fold of the comparisons (`/repo/vir/simdize.h` 43-44), whose operands are all instantiated. The comparison of the first
member with itself is left out. -/
def allEqualTo (n : Nat) : List Ty → Outcome Bool
  | [] => .ok true
  | c :: cs => do
    let m ← simdizeSize c
    let rest ← allEqualTo n cs
    .ok (n == m && rest)
end

/-- The fallback implementation (`/repo/vir/simd.h` 426-454, 1523-1525): `bytes k` is `sizeof`, `vec` the register size of
the target; every positive width is enabled. -/
def fallback (bytes : Nat → Nat) (vec : Nat) : Plat where
  native k := if bytes k > 8 then 1 else vec / bytes k
  deduces _ n := 0 < n

/-- libstdc++ for a target with vector registers of `vec` bytes, for the widths `simdize` asks for: a native vector, or
`fixed_size<n>` with `n` at most 32 (64 for one-byte elements with AVX-512BW). Used in `/repo/vir/simdize.h` 104-109. -/
def libstdcxx (bytes : Nat → Nat) (vec : Nat) : Plat where
  native k := vec / bytes k
  deduces k n := 0 < n && (n ≤ 32 || n == vec / bytes k)

end Vir.SimdizeTy
