import Verif.Model.Simd
import Verif.Model.CInt

/-!
# Operators, constructors and casts of the fallback simd (`/repo/vir/simd.h` 757-930, 1108-1842)

Integer element types. Every function below is written for `N` lanes; the classes for the scalar ABI
(`/repo/vir/simd.h` 625-755, 1113-1416) do the same on the single member `data`.
-/

namespace Vir.Simd

variable {α β : Type}

/-- Broadcast constructor (`/repo/vir/simd.h` 1574-1579; masks 791-795): the value is converted once. -/
def broadcast (n : Nat) (conv : α → β) (x : α) : Outcome (List β) :=
  let v := conv x
  gen n fun _ => .ok v

/-- Binary operators `%`, `&`, `|`, `^`, `<<`, `>>` (`/repo/vir/simd.h` 1485-1507) and `+`, `-`, `*`, `/` (1724-1739): each
lane is computed in the promoted type and converted back to `T` by the generator constructor. -/
def binary (t : IntTy) (op : BinOp) (x y : List Int) : Outcome (List Int) :=
  gen x.length fun i => do
    let a ← at' x i
    let b ← at' y i
    op.eval t a b

/-- Shifts by an `int` (`/repo/vir/simd.h` 1509-1515); `op` is `shl` or `shr`. -/
def shiftBy (t : IntTy) (op : BinOp) (x : List Int) (y : Int) : Outcome (List Int) :=
  gen x.length fun i => do
    let a ← at' x i
    op.eval t a y

/-- Compound assignment (`/repo/vir/simd.h` 1437-1483, 1692-1722): updates the lanes of `lhs` one after the other. The
right-hand side is the object `rhs`, or `lhs` itself when both are the same object (`x op= x`). -/
def compound (t : IntTy) (op : BinOp) (lhs : List Int) (rhs : Option (List Int)) : Outcome (List Int) :=
  forUp (fun i d => do
    let a ← rd d i
    let b ← rd (rhs.getD d) i
    wr d i (← op.eval t a b)) lhs.length 0 lhs

/-- Unary `+`, `-` and `~` (`/repo/vir/simd.h` 1683-1689, 1517-1519). Unary plus returns the object itself. -/
def unary (t : IntTy) (op : UnOp) (x : List Int) : Outcome (List Int) :=
  match op with
  | .plus => .ok x
  | op => gen x.length fun i => do op.eval t (← rd x i)

/-- Unary `!` (`/repo/vir/simd.h` 1679-1681): `!data[i]`. -/
def notSimd (x : List Int) : Outcome (List Bool) := gen x.length fun i => do .ok ((← rd x i) == 0)

/-- `operator++()` (`/repo/vir/simd.h` 1643-1650) and `operator--()` (1661-1667): new value of the object; `f` is `incr t`
or `decr t`. -/
def preStep (f : Int → Outcome Int) (x : List Int) : Outcome (List Int) :=
  forUp (fun i d => do wr d i (← f (← rd d i))) x.length 0 x

/-- `operator++(int)` (`/repo/vir/simd.h` 1652-1659) and `operator--(int)` (1669-1676): returned value and new value of the
object. -/
def postStep (f : Int → Outcome Int) (x : List Int) : Outcome (List Int × List Int) := do
  let r := x
  let x ← forUp (fun i d => do wr d i (← f (← rd d i))) x.length 0 x
  .ok (r, x)

/-- Comparison operators (`/repo/vir/simd.h` 1741-1764) of a simd of any element type; `rel` is the comparison of two
elements (for floating-point types not one of an order: every comparison with NaN but `!=` is false). -/
def compareWith (rel : α → α → Bool) (x y : List α) : Outcome (List Bool) :=
  gen x.length fun i => do
    let a ← rd x i
    let b ← rd y i
    .ok (rel a b)

/-- Comparison operators of an integer simd (`/repo/vir/simd.h` 1741-1764). -/
def compare (op : CmpOp) (x y : List Int) : Outcome (List Bool) := compareWith op.eval x y

/-- Mask operators `&&`, `||`, `&`, `|`, `^`, `==`, `!=` (`/repo/vir/simd.h` 864-907, 933-950): `op` on
`bool`; `&&` and `||` are written with `&` and `|`. -/
def maskBinary (op : Bool → Bool → Bool) (x y : List Bool) : Outcome (List Bool) :=
  forUp (fun i r => do
    let a ← rd x i
    let b ← rd y i
    wr r i (op a b)) x.length 0 (List.replicate x.length false)

/-- Compound mask operators `&=`, `|=`, `^=` (`/repo/vir/simd.h` 909-931). -/
def maskCompound (op : Bool → Bool → Bool) (x y : List Bool) : Outcome (List Bool) :=
  forUp (fun i d => do
    let a ← rd d i
    let b ← rd y i
    wr d i (op a b)) x.length 0 x

/-- Mask `!` (`/repo/vir/simd.h` 853-861). -/
def maskNot (x : List Bool) : Outcome (List Bool) :=
  forUp (fun i r => do wr r i (!(← rd x i))) x.length 0 (List.replicate x.length false)

/-- `static_simd_cast<T>(simd)` and `static_simd_cast<V>(simd)` (`/repo/vir/simd.h` 1769-1779): `n = V::size()`, `conv` the
conversion of one element. Also the conversion constructor (1582-1590). -/
def staticSimdCast (n : Nat) (conv : α → β) (x : List α) : Outcome (List β) :=
  gen n fun i => do .ok (conv (← at' x i))

/-- `copy_from` of a simd (`/repo/vir/simd.h` 1609-1615), reading at `mem + off`; `conv` converts a memory element. -/
def copyFrom (conv : α → β) (v : List β) (mem : List α) (off : Nat) : Outcome (List β) :=
  forUp (fun i d => do wr d i (conv (← rd mem (off + i)))) v.length 0 v

/-- Load constructor of a simd (`/repo/vir/simd.h` 1602-1606) and of a mask (813-816, no conversion). -/
def loadCtor (n : Nat) (conv : α → β) (mem : List α) (off : Nat) : Outcome (List β) :=
  gen n fun i => do .ok (conv (← rd mem (off + i)))

/-- Masked load constructor of a mask (`/repo/vir/simd.h` 818-822): unselected elements are not read. -/
def maskedLoadCtor (k : List Bool) (mem : List Bool) (off : Nat) : Outcome (List Bool) :=
  gen k.length fun i => do if ← at' k i then rd mem (off + i) else .ok false

/-- `copy_to` of a simd (`/repo/vir/simd.h` 1618-1624), writing to `mem + off`: the new contents of memory. The mask
version (832-834) copies the same bytes with `memcpy`. -/
def copyTo (conv : α → β) (v : List α) (mem : List β) (off : Nat) : Outcome (List β) :=
  forUp (fun i mem => do wr mem (off + i) (conv (← rd v i))) v.length 0 mem

/-- `to_fixed_size` of a simd with a `fixed_size` ABI (`/repo/vir/simd.h` 1801-1810). -/
def toFixedSize (x : List α) : Outcome (List α) := .ok x

/-- `to_fixed_size` of a simd with the scalar ABI (`/repo/vir/simd.h` 1812-1820). The parameter has type `simd<T>`, which
is scalar only for element types larger than 8 bytes. -/
def toFixedSizeScalar (x : List α) : Outcome (List α) := do
  let v ← at' x 0
  gen 1 fun _ => .ok v

/-- `to_native` and `to_compatible` (`/repo/vir/simd.h` 1822-1842), which exist for `fixed_size<1>` only: the result has type
`simd<T>` with `compat` lanes (`16 / sizeof(T)`, or one if `sizeof(T) > 8`, lines 444-447) and is initialized with `x[0]`
(broadcast). -/
def toDefaultAbi (compat : Nat) (x : List α) : Outcome (List α) :=
  if x.length = 1 then do
    let v ← at' x 0
    gen compat fun _ => .ok v
  else .ub .staticAssert

end Vir.Simd
