/-!
# Binary decomposition

The powers of two that sum up to a number, in ascending and descending order.
-/

namespace Vir.Spec

/-- The powers of two `2^k, ..., 2^(k+m-1)` occurring in `n`, ascending. -/
def ascBits (n : Nat) : Nat → Nat → List Nat
  | _, 0 => []
  | k, m + 1 => (if n.testBit k then [2 ^ k] else []) ++ ascBits n (k + 1) m

/-- The powers of two below `2^k` occurring in `n`, descending. -/
def descBits (n : Nat) : Nat → List Nat
  | 0 => []
  | k + 1 => (if n.testBit k then [2 ^ k] else []) ++ descBits n k

/-- All powers of two occurring in `n`, ascending. -/
def bitsAsc (n : Nat) : List Nat := ascBits n 0 (n.log2 + 1)

/-- All powers of two occurring in `n`, descending. -/
def bitsDesc (n : Nat) : List Nat := descBits n (n.log2 + 1)

end Vir.Spec
