/-!
# Arrays of structs and structs of arrays

A struct with `c` members is a `Vector α c`.
-/

namespace Vir.Spec

variable {α : Type} {c : Nat}

/-- The members of an array of structs, as they lie in memory. -/
def flat (xs : List (Vector α c)) : List α := (xs.map Vector.toList).flatten

/-- The simdized struct whose lanes are the given structs: vector `m` holds member `m` of every struct. -/
def members (xs : List (Vector α c)) : List (List α) := List.ofFn fun m : Fin c => xs.map fun x => x[m]

end Vir.Spec
