import Verif.Model.Permute

/-!
# Loads and stores of simdized structs (`/repo/vir/simdize.h` 452-492, 570-905)

A struct is the sequence of its `count` (flat) members, an array of structs the sequence of the members of its elements: member
`m` of struct `i` is element `i * count + m`. Padding is not represented: the code that copies bytes is used only if
`sizeof(T) * N == sizeof(base_type)` and all members have the same size, and then there is none. Members are values of one type
`α`; the code converts between member types of the same size with `bit_cast` only.
A simdized struct is the list of its member vectors.
-/

namespace Vir.Simdize
open Vir.Simd Vir.Permute

variable {α : Type}

/-- What decides at compile time which implementation is used. The constants in `/repo/vir/simdize.h` 593-601, 654-657, 760-772, 819-840. -/
structure SEnv where
  /-- constant evaluation, or no working `__builtin_shufflevector` -/
  genericOnly : Bool
  /-- the width `N` -/
  n : Nat
  /-- `_flat_member_count` -/
  count : Nat
  /-- `sizeof(T) * N == sizeof(base_type)` -/
  packed : Bool
  /-- all members have the size of the first one's elements -/
  equalSizes : Bool
  /-- `as_tuple_t<T>` is `tuple<float, float, float>` -/
  float3 : Bool
  /-- `tuple_type` is `tuple<V0, V0, V0>` -/
  sameTuple : Bool
  /-- `is_trivially_copyable_v<V0>` -/
  triv : Bool
  /-- `native_simd<U>::size()` for the element type `U` of the first member -/
  native : Nat

/-- `memcpy` of `n` elements from element `start` of the array into a vector. `std::memcpy` in `/repo/vir/simdize.h` 607-609, 673-675, 697-699, 741-743, 775-779. -/
def memcpyLoad (mem : List α) (start n : Nat) : Outcome (List α) := gen n fun i => rd mem (start + i)

/-- `memcpy` of a vector to element `start` of the array. `std::memcpy` in `/repo/vir/simdize.h` 890-892. -/
def memcpyStore (mem : List α) (start : Nat) (v : List α) : Outcome (List α) :=
  forUp (fun i mem => do wr mem (start + i) (← rd v i)) v.length 0 mem

/-- `__builtin_shufflevector(a, b, idx...)`; `junk i` is the value of a lane with index `-1`. `__builtin_shufflevector` in `/repo/vir/simdize.h` 95, 614-616, 702-705, 746-755, 785-798, 862-888. -/
def shuffle (junk : Nat → α) (n : Nat) (a b : List α) (idx : Nat → Int) : Outcome (List α) :=
  gen n fun i => shuffleLane (.ok (junk i)) a b (idx i)

/-- `detail::blend<Indexes...>(a, b)` (`/repo/vir/simdize.h` 85-98). -/
def blend (junk : Nat → α) (indexes : List Nat) (a b : List α) : Outcome (List α) :=
  let n := a.length
  if indexes.length ≤ n ∧ ∀ i ∈ indexes, i ≤ n then
    shuffle junk n a b fun i => if i ∈ indexes then i + n else i
  else .ub .staticAssert

/-- Two members (`/repo/vir/simdize.h` 593-619). -/
def load2 (junk : Nat → α) (n : Nat) (mem : List α) (off : Nat) : Outcome (List (List α)) := do
  let n2 := n / 2
  let x0 ← memcpyLoad mem (off * 2) n
  let x1 ← memcpyLoad mem ((off + n2) * 2) n
  let a ← shuffle junk (n2 + n2) x0 x1 fun i => if i < n2 then i * 2 else n + (i - n2) * 2
  let b ← shuffle junk (n2 + n2) x0 x1 fun i => if i < n2 then 1 + i * 2 else 1 + n + (i - n2) * 2
  .ok [a, b]

/-- Three floats, eight lanes (`/repo/vir/simdize.h` 656-693, the branch `if constexpr (true)`; the other one, 694-730, is never
used). -/
def load3f8 (P : PEnv) (zero : α) (junk : Nat → α) (mem : List α) (off : Nat) : Outcome (List (List α)) := do
  let x0 ← memcpyLoad mem (off * 3) 8
  let x1 ← memcpyLoad mem (off * 3 + 8) 8
  let x2 ← memcpyLoad mem (off * 3 + 16) 8
  let a0 ← blend junk [1, 4, 7] x0 x1
  let a0 ← blend junk [2, 5] a0 x2
  let b0 ← blend junk [2, 5] x0 x1
  let b0 ← blend junk [0, 3, 6] b0 x2
  let c0 ← blend junk [0, 3, 6] x0 x1
  let c0 ← blend junk [1, 4, 7] c0 x2
  let b ← simdPermute P zero (fun i => .ok (junk i)) [] 0 (rotate 1) (some 1) b0
  let c ← simdPermute P zero (fun i => .ok (junk i)) [] 0 (rotate 2) (some 2) c0
  .ok [a0, b, c]

/-- The indices in a list, as arguments of `__builtin_shufflevector`. `__builtin_shufflevector` in `/repo/vir/simdize.h` 95, 614-616, 702-705, 746-755, 785-798, 862-888. -/
def indices (l : List Int) : Nat → Int := fun i => l.getD i (-1)

/-- Three floats, four lanes (`/repo/vir/simdize.h` 732-758). -/
def load3f4 (junk : Nat → α) (mem : List α) (off : Nat) : Outcome (List (List α)) := do
  let abca ← memcpyLoad mem (off * 3) 4
  let bcab ← memcpyLoad mem (off * 3 + 4) 4
  let cabc ← memcpyLoad mem (off * 3 + 8) 4
  let a ← shuffle junk 4 abca (← blend junk [2, 3] cabc bcab) (indices [0, 3, 6, 5])
  let b ← shuffle junk 4 (← blend junk [0] abca bcab) (← blend junk [2] bcab cabc) (indices [1, 0, 7, 6])
  let c ← shuffle junk 4 (← blend junk [2, 3] bcab abca) cabc (indices [2, 1, 4, 7])
  .ok [a, b, c]

/-- One member of the three-member code (`/repo/vir/simdize.h` 784-798): the elements with index `m` modulo 3. -/
def gather3 (junk : Nat → α) (n m : Nat) (x0 x1 x2 : List α) : Outcome (List α) := do
  let t ← shuffle junk n x0 x1 fun i => if i % 3 = m then i else if (i + n) % 3 = m then i + n else -1
  shuffle junk n t x2 fun i => if i * 3 + m < n then i * 3 + m else i * 3 - n + m

/-- Three members (`/repo/vir/simdize.h` 760-802). -/
def load3 (junk : Nat → α) (n : Nat) (mem : List α) (off : Nat) : Outcome (List (List α)) := do
  let x0 ← memcpyLoad mem (off * 3) n
  let x1 ← memcpyLoad mem (off * 3 + n) n
  let x2 ← memcpyLoad mem (off * 3 + 2 * n) n
  let a ← gather3 junk n 0 x0 x1 x2
  let b ← gather3 junk n 1 x0 x1 x2
  let c ← gather3 junk n 2 x0 x1 x2
  .ok [a, b, c]

/-- The generic implementation (`/repo/vir/simdize.h` 806-811): `flat_get<m>` of every struct. `simd_tuple::copy_from` and its load
constructor (462-482) have the same loops. -/
def loadGeneric (n count : Nat) (mem : List α) (off : Nat) : Outcome (List (List α)) :=
  gen count fun m => gen n fun i => rd mem ((off + i) * count + m)

/-- `_load_elements_via_permute` (`/repo/vir/simdize.h` 579-812), used by the load constructor and by `copy_from` (907-918), from
struct number `off` of the array. -/
def load (S : SEnv) (P : PEnv) (zero : α) (junk : Nat → α) (mem : List α) (off : Nat) : Outcome (List (List α)) :=
  if !S.genericOnly && decide (S.n > 1) && S.packed && decide (S.count ≥ 2) && hasSingleBit S.n then
    let three := if S.count = 3 ∧ S.n > 2 ∧ S.equalSizes = true ∧ S.n ≤ S.native then load3 junk S.n mem off
      else loadGeneric S.n S.count mem off
    if S.count = 2 ∧ S.n > 2 then
      if S.equalSizes = true ∧ S.n ≤ S.native then load2 junk S.n mem off else three
    else if S.float3 = true ∧ S.sameTuple = true ∧ S.n = 8 ∧ S.triv = true then load3f8 P zero junk mem off
    else if S.float3 = true ∧ S.sameTuple = true ∧ S.n = 4 ∧ S.triv = true then load3f4 junk mem off
    else three
  else loadGeneric S.n S.count mem off

/-- `idx` of the store (`/repo/vir/simdize.h` 845-858). -/
def storeIdx (n : Nat) (i pos a b c : Nat) : Int :=
  let n3 := n / 3
  if i % 3 = 0 then i / 3 + a + pos * n3
  else if i % 3 = 1 then i / 3 + b + pos * n3 + n
  else i / 3 + c + ((pos + n % 3) % 3) * n3

/-- `(Is % 3 != 2 ? Is : Is + N)...` (`/repo/vir/simdize.h` 868-872, 884-888). -/
def mergeIdx (n : Nat) (i : Nat) : Int := if i % 3 ≠ 2 then i else i + n

/-- The vectors written by the three-member store (`/repo/vir/simdize.h` 859-889). -/
def scatter3 (junk : Nat → α) (n : Nat) (a b c : List α) : Outcome (List α × List α × List α) := do
  if n % 3 = 1 then do
    let aba ← shuffle junk n a b fun i => storeIdx n i 0 0 0 1
    let bcb ← shuffle junk n b c fun i => storeIdx n i 1 0 0 1
    let cac ← shuffle junk n c a fun i => storeIdx n i 2 0 1 0
    let a ← shuffle junk n aba cac (mergeIdx n)
    let b ← shuffle junk n bcb aba (mergeIdx n)
    let c ← shuffle junk n cac bcb (mergeIdx n)
    .ok (a, b, c)
  else if n % 3 = 2 then do
    let aba ← shuffle junk n a b fun i => storeIdx n i 0 0 0 2
    let cac ← shuffle junk n c a fun i => storeIdx n i 1 0 1 0
    let bcb ← shuffle junk n b c fun i => storeIdx n i 2 1 1 1
    let a ← shuffle junk n aba cac (mergeIdx n)
    let b ← shuffle junk n cac bcb (mergeIdx n)
    let c ← shuffle junk n bcb aba (mergeIdx n)
    .ok (a, b, c)
  else .ub .staticAssert

/-- The three-member store (`/repo/vir/simdize.h` 831-895). -/
def store3 (junk : Nat → α) (n : Nat) (v : List (List α)) (mem : List α) (off : Nat) : Outcome (List α) := do
  let (a, b, c) ← scatter3 junk n (← rd v 0) (← rd v 1) (← rd v 2)
  let mem ← memcpyStore mem (off * 3) a
  let mem ← memcpyStore mem (off * 3 + n) b
  memcpyStore mem (off * 3 + 2 * n) c

/-- `operator[](i)` (`/repo/vir/simdize.h` 444-451, 571-577): the struct made of lane `i` of every member. -/
def subscript (count : Nat) (v : List (List α)) (i : Nat) : Outcome (List α) :=
  gen count fun m => do at' (← rd v m) i

/-- The generic store (`/repo/vir/simdize.h` 898-899): `addr[i] = operator[](i)` for every lane. `simd_tuple::copy_to` (486-493) is
the same loop. -/
def storeGeneric (n count : Nat) (v : List (List α)) (mem : List α) (off : Nat) : Outcome (List α) :=
  forUp (fun i mem => do
    let s ← subscript count v i
    memcpyStore mem ((off + i) * count) s) n 0 mem

/-- `_store_elements_via_permute` (`/repo/vir/simdize.h` 814-900), used by `copy_to` (925-929), to struct number `off` of the array. -/
def store (S : SEnv) (junk : Nat → α) (v : List (List α)) (mem : List α) (off : Nat) : Outcome (List α) :=
  if !S.genericOnly && decide (S.n > 2) && decide (S.count ≥ 2) && S.packed && hasSingleBit S.n then
    if S.count = 3 ∧ S.n ≤ S.native ∧ S.equalSizes = true then store3 junk S.n v mem off
    else storeGeneric S.n S.count v mem off
  else storeGeneric S.n S.count v mem off

end Vir.Simdize
