import Verif.Model.Simd

/-!
# Reductions of `simd_mask` (`/repo/vir/simd.h` 949-1105)
-/

namespace Vir.Simd

/-- `all_of(simd_mask<T, fixed_size<N>>)` (`/repo/vir/simd.h` 995-1005). -/
def allOf (k : List Bool) : Outcome Bool :=
  searchUp (fun i => do if !(← at' k i) then .ok (some false) else .ok none) (.ok true) k.length 0

/-- `any_of(simd_mask<T, fixed_size<N>>)` (`/repo/vir/simd.h` 1007-1017). -/
def anyOf (k : List Bool) : Outcome Bool :=
  searchUp (fun i => do if ← at' k i then .ok (some true) else .ok none) (.ok false) k.length 0

/-- `none_of(simd_mask<T, fixed_size<N>>)` (`/repo/vir/simd.h` 1019-1029). -/
def noneOf (k : List Bool) : Outcome Bool :=
  searchUp (fun i => do if ← at' k i then .ok (some false) else .ok none) (.ok true) k.length 0

/-- `some_of(simd_mask<T, fixed_size<N>>)` (`/repo/vir/simd.h` 1031-1042). -/
def someOf (k : List Bool) : Outcome Bool := do
  let last ← at' k 0
  searchUp (fun i => do if last != (← at' k i) then .ok (some true) else .ok none) (.ok false) (k.length - 1) 1

/-- `popcount(simd_mask<T, fixed_size<N>>)` (`/repo/vir/simd.h` 1044-1052). The `int` cannot overflow because the width
is an `int`. -/
def popcount (k : List Bool) : Outcome Nat := do
  let cnt ← at' k 0
  forUp (fun i cnt => do .ok (cnt + (← at' k i).toNat)) (k.length - 1) 1 cnt.toNat

/-- `find_first_set(simd_mask<T, fixed_size<N>>)` (`/repo/vir/simd.h` 1054-1065). -/
def findFirstSet (k : List Bool) : Outcome Nat := do
  if !(← anyOf k) then .trap
  else searchUp (fun i => do if ← at' k i then .ok (some i) else .ok none) (.ub .unreachable) k.length 0

/-- `find_last_set(simd_mask<T, fixed_size<N>>)` (`/repo/vir/simd.h` 1067-1078). -/
def findLastSet (k : List Bool) : Outcome Nat := do
  if !(← anyOf k) then .trap
  else searchDown (fun i => do if ← at' k i then .ok (some i) else .ok none) (.ub .unreachable) k.length

/-- The overloads for `simd_mask<T, scalar>` (`/repo/vir/simd.h` 953-993). -/
def allOfScalar (k : Bool) : Outcome Bool := .ok k
@[inherit_doc allOfScalar] def anyOfScalar (k : Bool) : Outcome Bool := .ok k
@[inherit_doc allOfScalar] def noneOfScalar (k : Bool) : Outcome Bool := .ok (!k)
@[inherit_doc allOfScalar] def someOfScalar (_ : Bool) : Outcome Bool := .ok false
@[inherit_doc allOfScalar] def popcountScalar (k : Bool) : Outcome Nat := .ok k.toNat
@[inherit_doc allOfScalar] def findFirstSetScalar (k : Bool) : Outcome Nat := if !k then .trap else .ok 0
@[inherit_doc allOfScalar] def findLastSetScalar (k : Bool) : Outcome Nat := if !k then .trap else .ok 0

/-- The overloads for `bool` (`/repo/vir/simd.h` 1080-1106). -/
def allOfBool (k : Bool) : Outcome Bool := .ok k
@[inherit_doc allOfBool] def anyOfBool (k : Bool) : Outcome Bool := .ok k
@[inherit_doc allOfBool] def noneOfBool (k : Bool) : Outcome Bool := .ok (!k)
@[inherit_doc allOfBool] def someOfBool (_ : Bool) : Outcome Bool := .ok false
@[inherit_doc allOfBool] def popcountBool (k : Bool) : Outcome Nat := .ok k.toNat
@[inherit_doc allOfBool] def findFirstSetBool (_ : Bool) : Outcome Nat := .ok 0
@[inherit_doc allOfBool] def findLastSetBool (_ : Bool) : Outcome Nat := .ok 0

end Vir.Simd
