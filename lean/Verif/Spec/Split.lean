/-!
# Cutting a list into consecutive pieces
-/

namespace Vir.Spec

variable {α : Type}

/-- The consecutive pieces of `x` whose lengths are given. -/
def cut : List Nat → List α → List (List α)
  | [], _ => []
  | n :: ns, x => x.take n :: cut ns (x.drop n)

end Vir.Spec
