/-!
# Calling a scalar function on one element after the other
-/

namespace Vir.Spec

/-- `for (auto a : xs) results.push_back(f(a));` where `f` may read and change the state `s`. -/
def inOrder {α β S : Type} (f : α → S → β × S) : List α → S → List β × S
  | [], s => ([], s)
  | a :: as, s =>
    let r := f a s
    let rs := inOrder f as r.2
    (r.1 :: rs.1, rs.2)

/-- Pairs of elements with the same index. -/
def pairs {α β : Type} (x : List α) (y : List β) : List (α × β) := x.zip y

/-- Triples of elements with the same index. -/
def triples {α β γ : Type} (x : List α) (y : List β) (z : List γ) : List (α × β × γ) := x.zip (y.zip z)

end Vir.Spec
