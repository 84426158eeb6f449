/-!
# Model of `fake_modify` and `fake_read`

`/repo/vir/simd_benchmarking.h`. An `asm` statement without instructions is an event for the compiler: it needs the operand's value, and if
the operand is also an output the compiler has to assume any value after it. The model is what the compiler may assume: `h k b` is the
value it finds in the operand of statement number `k` whose value was `b`. The machine executes no instructions: `h k b = b`.
-/

namespace Vir.Benchmarking

/-- An object that is not a `simd` or `simd_mask`: whether `is_floating_point_v` holds for its type, and its object representation. The types of `/repo/vir/simd_benchmarking.h` 26-27, 48-51, 63-64, 85-88. -/
structure Leaf where
  isFloat : Bool
  bytes : List UInt8
deriving DecidableEq

/-- An argument. The last four are `simd` and `simd_mask` objects: those of libstdc++ by the type of `__data(x)` (`/repo/vir/simd_benchmarking.h` 31-39), and those of
`vir::stdx` (41-45). -/
inductive Obj where
  | leaf (x : Leaf)
  /-- a `_SimdTuple` with its elements; they are no `simd` objects -/
  | tuple (elements : List Leaf)
  /-- a `_SimdWrapper` with its member `_M_data` -/
  | wrapped (data : Leaf)
  /-- anything else -/
  | plain (d : Leaf)
  | virSimd (bytes : List UInt8)
deriving DecidableEq

/-- One constraint alternative of an operand: a register class, anything general (`g`) or memory. `/repo/vir/simd_benchmarking.h` 16-20, 27, 51. -/
inductive Alt where
  | v | x | g | m
deriving DecidableEq

/-- `VIR_SIMD_REG "g,m"` (`/repo/vir/simd_benchmarking.h` 16-20, undefined again in 90). -/
def regAlts (x86 : Bool) : List Alt := (if x86 then [.v, .x] else []) ++ [.g, .m]

/-- An `asm volatile` statement: whether the operand is an input and output, its constraint and its value. `/repo/vir/simd_benchmarking.h` 26-51, 63-88. -/
structure Asm where
  inOut : Bool
  alts : List Alt
  operand : List UInt8
deriving DecidableEq

/-- What the compiler sees: the statements so far. The effect of `/repo/vir/simd_benchmarking.h` 26-51, 63-88. -/
abbrev Trace := List Asm

/-- `asm volatile("" : "+..."(x))`: returns the value of `x` afterwards. `/repo/vir/simd_benchmarking.h` 27, 43, 45, 49, 51. -/
def asmInOut (h : Nat → List UInt8 → List UInt8) (alts : List Alt) (b : List UInt8) (t : Trace) : List UInt8 × Trace :=
  (h t.length b, t ++ [⟨true, alts, b⟩])

/-- `asm volatile("" :: "..."(x))`. `/repo/vir/simd_benchmarking.h` 64, 80, 82, 86, 88. -/
def asmIn (alts : List Alt) (b : List UInt8) (t : Trace) : Trace := t ++ [⟨false, alts, b⟩]

/-- The branches of `fake_modify_one` for types other than simd: `/repo/vir/simd_benchmarking.h` 26-27 and 48-51. -/
def modifyLeaf (x86 : Bool) (h : Nat → List UInt8 → List UInt8) (x : Leaf) (t : Trace) : Leaf × Trace :=
  if x.isFloat then let r := asmInOut h (regAlts x86) x.bytes t; (⟨x.isFloat, r.1⟩, r.2)
  else if x.bytes.length ≥ 16 then let r := asmInOut h (regAlts x86) x.bytes t; (⟨x.isFloat, r.1⟩, r.2)
  else let r := asmInOut h [.g] x.bytes t; (⟨x.isFloat, r.1⟩, r.2)

/-- `stdx::__for_each(d, ...)`, `/repo/vir/simd_benchmarking.h` 33-35. -/
def modifyLeaves (x86 : Bool) (h : Nat → List UInt8 → List UInt8) : List Leaf → Trace → List Leaf × Trace
  | [], t => ([], t)
  | x :: xs, t =>
    let r := modifyLeaf x86 h x t
    let rs := modifyLeaves x86 h xs r.2
    (r.1 :: rs.1, rs.2)

/-- `fake_modify_one`, `/repo/vir/simd_benchmarking.h` 22-52. -/
def fakeModifyOne (x86 : Bool) (h : Nat → List UInt8 → List UInt8) (x : Obj) (t : Trace) : Obj × Trace :=
  match x with
  | .leaf l => let r := modifyLeaf x86 h l t; (.leaf r.1, r.2)
  | .tuple es => let r := modifyLeaves x86 h es t; (.tuple r.1, r.2)
  | .wrapped d => let r := modifyLeaf x86 h d t; (.wrapped r.1, r.2)
  | .plain d => let r := modifyLeaf x86 h d t; (.plain r.1, r.2)
  | .virSimd b =>
    if b.length < 16 then let r := asmInOut h [.g] b t; (.virSimd r.1, r.2)
    else let r := asmInOut h (regAlts x86) b t; (.virSimd r.1, r.2)

/-- `fake_modify(more...)`, `/repo/vir/simd_benchmarking.h` 54-57: a fold over the comma operator, from left to right. -/
def fakeModify (x86 : Bool) (h : Nat → List UInt8 → List UInt8) : List Obj → Trace → List Obj × Trace
  | [], t => ([], t)
  | x :: xs, t =>
    let r := fakeModifyOne x86 h x t
    let rs := fakeModify x86 h xs r.2
    (r.1 :: rs.1, rs.2)

/-- The branches of `fake_read_one` for types other than simd: `/repo/vir/simd_benchmarking.h` 63-64 and 85-88. -/
def readLeaf (x86 : Bool) (x : Leaf) (t : Trace) : Trace :=
  if x.isFloat then asmIn (regAlts x86) x.bytes t
  else if x.bytes.length ≥ 16 then asmIn (regAlts x86) x.bytes t
  else asmIn [.g] x.bytes t

/-- `fake_read_one`, `/repo/vir/simd_benchmarking.h` 59-89; `__for_each` in 70-72. -/
def fakeReadOne (x86 : Bool) (x : Obj) (t : Trace) : Trace :=
  match x with
  | .leaf l => readLeaf x86 l t
  | .tuple es => es.foldl (fun t e => readLeaf x86 e t) t
  | .wrapped d => readLeaf x86 d t
  | .plain d => readLeaf x86 d t
  | .virSimd b => if b.length < 16 then asmIn [.g] b t else asmIn (regAlts x86) b t

/-- `fake_read(more...)`, `/repo/vir/simd_benchmarking.h` 92-95. -/
def fakeRead (x86 : Bool) (xs : List Obj) (t : Trace) : Trace := xs.foldl (fun t x => fakeReadOne x86 x t) t

end Vir.Benchmarking
