import Verif.Model.SimdOps
import Verif.Model.SimdWhere
import Verif.Model.MaskReductions

/-!
# Programs on simds: assignments, masked assignments and loops until no lane is active

Generic code on `simd` consists of declarations, assignments, masked assignments and loops such as
`while (any_of(k)) { where(k, x) += y; k = k && x < limit; }`. `SimdProg.Stmt` is the syntax of such programs over variables of several
integer types; `Stmt.run` runs one with the functions of `Verif/Model/SimdOps.lean`, `SimdWhere.lean` and `MaskReductions.lean`.

Simplifications: masks of different element types are not distinguished (`fixed_size` masks of one width convert to each other
implicitly, `/repo/vir/simd.h` 798-803, lane by lane); all simds of a program have one width.
-/

namespace Vir.SimdProg

/-- Expressions (`/repo/vir/simd.h` 1485-1519, 1574-1579, 1683-1739, 1769-1779): variables, broadcasts of constants to a simd of type `t`,
operators on simds of type `t`, `static_simd_cast` from elements of type `s` to `t`. -/
inductive Ex where
  | var (k : Nat)
  | lit (t : IntTy) (c : Int)
  | bin (t : IntTy) (op : BinOp) (a b : Ex)
  | un (t : IntTy) (op : UnOp) (a : Ex)
  | cast (s t : IntTy) (a : Ex)
deriving DecidableEq

/-- Mask expressions (`/repo/vir/simd.h` 853-877, 1741-1764). -/
inductive Mk where
  | mvar (j : Nat)
  | cmp (op : CmpOp) (t : IntTy) (a b : Ex)
  | and (a b : Mk)
  | or (a b : Mk)
  | not (a : Mk)
deriving DecidableEq

/-- Statements: `x_k = e`, `x_k op= e` (`/repo/vir/simd.h` 1437-1483, 1692-1722), `++x_k` and `--x_k` (1643-1667), the same for
`where(m, x_k)` (2097-2168), `k_j = m`, and `while (any_of(m)) body` (1007-1017). -/
inductive Stmt where
  | skip
  | seq (a b : Stmt)
  | assign (k : Nat) (e : Ex)
  | compound (t : IntTy) (op : BinOp) (k : Nat) (e : Ex)
  | step (t : IntTy) (up : Bool) (k : Nat)
  | whereAssign (m : Mk) (k : Nat) (e : Ex)
  | whereCompound (t : IntTy) (op : BinOp) (m : Mk) (k : Nat) (e : Ex)
  | whereStep (t : IntTy) (up : Bool) (m : Mk) (k : Nat)
  | setMask (j : Nat) (m : Mk)
  | loop (m : Mk) (body : Stmt)

/-- The simd variables and the mask variables of a program (objects of `/repo/vir/simd.h` 735-950, 1532-1768). -/
structure State where
  vars : List (List Int)
  masks : List (List Bool)
deriving DecidableEq

/-- A variable; there is always an object of that name in C++. `/repo/vir/simd.h` 1532-1768. -/
def get {α : Type} (xs : List α) (k : Nat) : Outcome α :=
  match xs[k]? with
  | some x => .ok x
  | none => .ub .staticAssert

/-- The value of an expression on simds of width `w`. `/repo/vir/simd.h` 1485-1519, 1574-1579, 1683-1739, 1769-1779. -/
def Ex.simd (w : Nat) (vars : List (List Int)) : Ex → Outcome (List Int)
  | .var k => get vars k
  | .lit t c => Simd.broadcast w t.conv c
  | .bin t op a b => do
    let x ← a.simd w vars
    let y ← b.simd w vars
    Simd.binary t op x y
  | .un t op a => do
    let x ← a.simd w vars
    Simd.unary t op x
  | .cast _ t a => do
    let x ← a.simd w vars
    Simd.staticSimdCast w t.conv x

/-- The value of a mask expression. `/repo/vir/simd.h` 853-877, 1741-1764. -/
def Mk.simd (w : Nat) (s : State) : Mk → Outcome (List Bool)
  | .mvar j => get s.masks j
  | .cmp op _ a b => do
    let x ← a.simd w s.vars
    let y ← b.simd w s.vars
    Simd.compare op x y
  | .and a b => do
    let x ← a.simd w s
    let y ← b.simd w s
    Simd.maskBinary (· && ·) x y
  | .or a b => do
    let x ← a.simd w s
    let y ← b.simd w s
    Simd.maskBinary (· || ·) x y
  | .not a => do
    let x ← a.simd w s
    Simd.maskNot x

/-- A `while` loop; more than `fuel` tests of the condition count as an endless loop. Loops over `any_of`, `/repo/vir/simd.h` 1007-1017. -/
def iter (cond : State → Outcome Bool) (body : State → Outcome State) : Nat → State → Outcome State
  | 0, _ => .ub .diverge
  | fuel + 1, s => do
    if ← cond s then do
      let s ← body s
      iter cond body fuel s
    else .ok s

/-- The scalar operation of `++` or `--` (`/repo/vir/simd.h` 1643-1667, 2134-2168). -/
def stepFn (t : IntTy) (up : Bool) : Int → Outcome Int := if up then incr t else decr t

/-- Runs a statement on simds of width `w`. In `x op= x` both operands are the same object. The masked statements read a lane of the
right-hand side before they write that lane, so that it does not matter there. `/repo/vir/simd.h` 1437-1483, 1643-1667, 1692-1722,
2097-2168, 1007-1017. -/
def Stmt.run (w fuel : Nat) : Stmt → State → Outcome State
  | .skip, s => .ok s
  | .seq a b, s => do
    let s ← a.run w fuel s
    b.run w fuel s
  | .assign k e, s => do
    let x ← e.simd w s.vars
    .ok ⟨s.vars.set k x, s.masks⟩
  | .compound t op k e, s => do
    let y ← e.simd w s.vars
    let x ← get s.vars k
    let x ← Simd.compound t op x (if e = .var k then none else some y)
    .ok ⟨s.vars.set k x, s.masks⟩
  | .step t up k, s => do
    let x ← get s.vars k
    let x ← Simd.preStep (stepFn t up) x
    .ok ⟨s.vars.set k x, s.masks⟩
  | .whereAssign m k e, s => do
    let b ← m.simd w s
    let y ← e.simd w s.vars
    let x ← get s.vars k
    let x ← Simd.whereAssign b x y
    .ok ⟨s.vars.set k x, s.masks⟩
  | .whereCompound t op m k e, s => do
    let b ← m.simd w s
    let y ← e.simd w s.vars
    let x ← get s.vars k
    let x ← Simd.whereOpAssign (op.eval t) b x y
    .ok ⟨s.vars.set k x, s.masks⟩
  | .whereStep t up m k, s => do
    let b ← m.simd w s
    let x ← get s.vars k
    let x ← Simd.whereIncDec (stepFn t up) b x
    .ok ⟨s.vars.set k x, s.masks⟩
  | .setMask j m, s => do
    let b ← m.simd w s
    .ok ⟨s.vars, s.masks.set j b⟩
  | .loop m body, s =>
    iter (fun s => do
      let b ← m.simd w s
      Simd.anyOf b) (body.run w fuel) fuel s

end Vir.SimdProg
