import Verif.Model.SimdProg

/-!
# Programs on simds of any element type

The same programs as in `Verif/Model/SimdProg.lean`, for elements of any type, for example floating-point numbers: the operation on one
element is a parameter. Simds made with a generator, which may depend on the index of the lane and read memory (a gather), and masked
assignments to masks are included.

Simplifications: masks of different element types are not distinguished, and all simds of a program have one width and elements of one Lean
type (which may be a sum of several element types).
-/

namespace Vir.LaneProg
open SimdProg

variable {α : Type}

/-- Expressions: variables; simds made with a generator (`/repo/vir/simd.h` 1552-1556, 1593-1599), which includes broadcasts (1574-1579);
operators with one operand (1517-1519, 1679-1689) and generators that read lane `i` of a simd, such as `[&](auto i) { return mem[x[i]]; }`;
operators with two operands (1485-1507, 1724-1739). The operation on elements may be undefined for some values. -/
inductive Ex (α : Type) where
  | var (k : Nat)
  | gen (f : Nat → Outcome α)
  | un (f : α → Outcome α) (a : Ex α)
  | bin (f : α → α → Outcome α) (a b : Ex α)

/-- Mask expressions (`/repo/vir/simd.h` 853-877, 1741-1764); a comparison is any relation of two elements. -/
inductive Mk (α : Type) where
  | mvar (j : Nat)
  | cmp (r : α → α → Bool) (a b : Ex α)
  | and (a b : Mk α)
  | or (a b : Mk α)
  | not (a : Mk α)

/-- Statements: `x_k = e`, `x_k op= e` (`/repo/vir/simd.h` 1437-1483, 1692-1722), `where(m, x_k) = e`, `where(m, x_k) op= e` (2097-2132),
`k_j = m`, `where(m, k_j) = m'` (2097-2107, 2248-2252) and `while (any_of(m)) body` (1007-1017). -/
inductive Stmt (α : Type) where
  | skip
  | seq (a b : Stmt α)
  | assign (k : Nat) (e : Ex α)
  | compound (f : α → α → Outcome α) (k : Nat) (e : Ex α)
  | whereAssign (m : Mk α) (k : Nat) (e : Ex α)
  | whereCompound (f : α → α → Outcome α) (m : Mk α) (k : Nat) (e : Ex α)
  | setMask (j : Nat) (m : Mk α)
  | whereMask (m : Mk α) (j : Nat) (m' : Mk α)
  | loop (m : Mk α) (body : Stmt α)

/-- The simd variables and the mask variables of a program (objects of `/repo/vir/simd.h` 735-950, 1532-1768). -/
structure State (α : Type) where
  vars : List (List α)
  masks : List (List Bool)

/-- The value of an expression on simds of width `w`. `/repo/vir/simd.h` 1485-1519, 1552-1556, 1574-1579, 1593-1599, 1679-1739. -/
def Ex.simd (w : Nat) (vars : List (List α)) : Ex α → Outcome (List α)
  | .var k => get vars k
  | .gen f => Simd.gen w f
  | .un f a => do
    let x ← a.simd w vars
    Simd.gen x.length fun i => do f (← Simd.rd x i)
  | .bin f a b => do
    let x ← a.simd w vars
    let y ← b.simd w vars
    Simd.gen x.length fun i => do
      let a ← Simd.at' x i
      let b ← Simd.at' y i
      f a b

/-- The value of a mask expression. `/repo/vir/simd.h` 853-877, 1741-1764. -/
def Mk.simd (w : Nat) (s : State α) : Mk α → Outcome (List Bool)
  | .mvar j => get s.masks j
  | .cmp r a b => do
    let x ← a.simd w s.vars
    let y ← b.simd w s.vars
    Simd.compareWith r x y
  | .and a b => do
    let x ← a.simd w s
    let y ← b.simd w s
    Simd.maskBinary (· && ·) x y
  | .or a b => do
    let x ← a.simd w s
    let y ← b.simd w s
    Simd.maskBinary (· || ·) x y
  | .not a => do
    let x ← a.simd w s
    Simd.maskNot x

/-- A `while` loop; more than `fuel` tests of the condition count as an endless loop. Loops over `any_of`, `/repo/vir/simd.h` 1007-1017. -/
def iter (cond : State α → Outcome Bool) (body : State α → Outcome (State α)) : Nat → State α → Outcome (State α)
  | 0, _ => .ub .diverge
  | fuel + 1, s => do
    if ← cond s then do
      let s ← body s
      iter cond body fuel s
    else .ok s

/-- Compound assignment (`/repo/vir/simd.h` 1437-1483, 1692-1722): updates the lanes of `lhs` one after the other. The right-hand side is
the object `rhs`, or `lhs` itself when both are the same object. -/
def compoundWith (f : α → α → Outcome α) (lhs : List α) (rhs : Option (List α)) : Outcome (List α) :=
  Simd.forUp (fun i d => do
    let a ← Simd.rd d i
    let b ← Simd.rd (rhs.getD d) i
    Simd.wr d i (← f a b)) lhs.length 0 lhs

/-- Is the expression the variable `k` itself? Then `x_k op= e` reads and writes one object. `/repo/vir/simd.h` 1437-1483, 1692-1722. -/
def Ex.isVar (k : Nat) : Ex α → Bool
  | .var j => j == k
  | _ => false

/-- Is the condition the mask variable `j` itself? Then `where(k_j, k_j) = m'` reads and writes one object. `/repo/vir/simd.h` 2248-2252. -/
def Mk.isVar (j : Nat) : Mk α → Bool
  | .mvar i => i == j
  | _ => false

/-- `where(b, x) = y` for masks (`/repo/vir/simd.h` 2097-2107, 2248-2252); `self` if `b` and `x` are the same object. -/
def assignMask (self : Bool) (b x y : List Bool) : Outcome (List Bool) :=
  if self then Simd.whereAssignSelf x y else Simd.whereAssign b x y

/-- Runs a statement on simds of width `w`. In `x op= x` both operands are the same object, and so they are in `where(k, k) = m`; the other
masked statements read a lane of the right-hand side before they write that lane, so that it does not matter there.
`/repo/vir/simd.h` 1437-1483, 1692-1722, 2097-2132, 2248-2252, 1007-1017. -/
def Stmt.run (w fuel : Nat) : Stmt α → State α → Outcome (State α)
  | .skip, s => .ok s
  | .seq a b, s => do
    let s ← a.run w fuel s
    b.run w fuel s
  | .assign k e, s => do
    let x ← e.simd w s.vars
    .ok ⟨s.vars.set k x, s.masks⟩
  | .compound f k e, s => do
    let y ← e.simd w s.vars
    let x ← get s.vars k
    let x ← compoundWith f x (if e.isVar k then none else some y)
    .ok ⟨s.vars.set k x, s.masks⟩
  | .whereAssign m k e, s => do
    let b ← m.simd w s
    let y ← e.simd w s.vars
    let x ← get s.vars k
    let x ← Simd.whereAssign b x y
    .ok ⟨s.vars.set k x, s.masks⟩
  | .whereCompound f m k e, s => do
    let b ← m.simd w s
    let y ← e.simd w s.vars
    let x ← get s.vars k
    let x ← Simd.whereOpAssign f b x y
    .ok ⟨s.vars.set k x, s.masks⟩
  | .setMask j m, s => do
    let b ← m.simd w s
    .ok ⟨s.vars, s.masks.set j b⟩
  | .whereMask m j m', s => do
    let b ← m.simd w s
    let y ← m'.simd w s
    let x ← get s.masks j
    let x ← assignMask (m.isVar j) b x y
    .ok ⟨s.vars, s.masks.set j x⟩
  | .loop m body, s =>
    iter (fun s => do
      let b ← m.simd w s
      Simd.anyOf b) (body.run w fuel) fuel s

end Vir.LaneProg
