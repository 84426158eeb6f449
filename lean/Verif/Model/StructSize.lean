import Verif.Outcome

/-!
# Number of members of an aggregate (`/repo/vir/struct_reflect.h` 72-117)

`acc n` stands for the concept `aggregate_with_n_members<T, n>` (`/repo/vir/struct_reflect.h` 20-70): whether `T` can be
initialised from `n` braced initialisers. It is a parameter here; `Verif/Model/StructMembers.lean` derives it from the bases and members.
-/

namespace Vir.StructSize

/-- `struct_size<T, Lo, Hi, N>()` (`/repo/vir/struct_reflect.h` 72-117). `left_index` and `right_index` are computed in
`size_t`, which would wrap for `N < Lo` or `Hi < N`; `fuel` bounds the instantiation depth. Both ways of leaving the intended
range are `ub diverge`, as the instantiation would not end sensibly. -/
def structSize (acc : Nat → Bool) : (fuel : Nat) → (lo hi n : Nat) → Outcome Nat
  | 0, _, _, _ => .ub .diverge
  | fuel + 1, lo, hi, n =>
    if n < lo ∨ hi < n then .ub .diverge
    else
      let leftIndex := lo + (n - lo) / 2
      let rightIndex := n + (hi - n + 1) / 2
      if acc n then
        if n = hi then .ok n
        else do
          let right ← structSize acc fuel (n + 1) hi rightIndex
          if right = 0 then .ok n else .ok right
      else if n = lo then
        if n = hi then .ok 0 else structSize acc fuel (n + 1) hi rightIndex
      else do
        let left ← structSize acc fuel lo (n - 1) leftIndex
        if left > 0 then .ok left
        else if n = hi then .ok 0
        else structSize acc fuel (n + 1) hi rightIndex

/-- `struct_size<T>()` with its default arguments: `Lo = 0`, `Hi = sizeof(T) * CHAR_BIT`, `N = 8`
(`/repo/vir/struct_reflect.h` 72). A compiler's limit on the instantiation depth is not modelled; the fuel is one more than
the number of candidates. -/
def structSizeV (acc : Nat → Bool) (sizeofT : Nat) : Outcome Nat := structSize acc (sizeofT * 8 + 1) 0 (sizeofT * 8) 8

end Vir.StructSize
