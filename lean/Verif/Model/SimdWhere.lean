import Verif.Model.Simd

/-!
# `where` expressions of the fallback `simd` (`/repo/vir/simd.h` 1947-2276)

The value referred to by a where expression is the list of its lanes, the operations return its new contents.
`as_simd` (2074-2087) returns a copy of the right-hand side, so that it is unaffected by the assignment even if it is
the same object.
-/

namespace Vir.Simd

variable {α β : Type}

/-- The loop of all masked assignments: `for (i) if (m_k[i]) m_value[i] = f(i, m_value[i])`. `/repo/vir/simd.h` 2097-2168. -/
def maskedUpdate (f : Nat → α → Outcome α) (k : List Bool) (v : List α) : Outcome (List α) :=
  forUp (fun i v => do
    if ← at' k i then do
      let x ← at' v i
      let y ← f i x
      wr v i y
    else .ok v) v.length 0 v

/-- `where(k, v) = x` (`/repo/vir/simd.h` 2097-2107). -/
def whereAssign (k : List Bool) (v rhs : List α) : Outcome (List α) := maskedUpdate (fun i _ => at' rhs i) k v

/-- `where(k, v) op= x` (`/repo/vir/simd.h` 2109-2132), for any operation, which may be undefined on some values. -/
def whereOpAssign (op : α → α → Outcome α) (k : List Bool) (v rhs : List α) : Outcome (List α) :=
  maskedUpdate (fun i x => do op x (← at' rhs i)) k v

/-- `++where(k, v)`, `where(k, v)++`, `--where(k, v)`, `where(k, v)--` (`/repo/vir/simd.h` 2134-2168); `f` is the scalar
operation. -/
def whereIncDec (f : α → Outcome α) (k : List Bool) (v : List α) : Outcome (List α) := maskedUpdate (fun _ x => f x) k v

/-- `where(k, v).copy_from(mem + off)` of a non-const where expression (`/repo/vir/simd.h` 2170-2180). -/
def whereCopyFrom (cvt : β → α) (k : List Bool) (v : List α) (mem : List β) (off : Nat) : Outcome (List α) :=
  maskedUpdate (fun i _ => do .ok (cvt (← rd mem (off + i)))) k v

/-- `-where(k, v)` (`/repo/vir/simd.h` 1977-1983). -/
def whereNeg (neg : α → α) (k : List Bool) (v : List α) : Outcome (List α) :=
  gen v.length fun i => do if ← at' k i then .ok (neg (← at' v i)) else at' v i

/-- `where(k, v).copy_from(mem + off)` of a const where expression, returning a new object
(`/repo/vir/simd.h` 1985-1992). -/
def constWhereCopyFrom (cvt : β → α) (k : List Bool) (v : List α) (mem : List β) (off : Nat) : Outcome (List α) :=
  gen v.length fun i => do if ← at' k i then .ok (cvt (← rd mem (off + i))) else at' v i

/-- `where(k, v).copy_to(mem + off)` (`/repo/vir/simd.h` 1994-2003): the new contents of the memory. -/
def whereCopyTo (cvt : α → β) (k : List Bool) (v : List α) (mem : List β) (off : Nat) : Outcome (List β) :=
  forUp (fun i mem => do if ← at' k i then wr mem (off + i) (cvt (← at' v i)) else .ok mem) v.length 0 mem

/-- `where(k, k) = x`: mask and value are the same object (the overload for masks, `/repo/vir/simd.h` 2248-2252, with
the loop of 2097-2107), so that the mask changes during the loop. -/
def whereAssignSelf (k rhs : List Bool) : Outcome (List Bool) :=
  forUp (fun i k => do if ← at' k i then wr k i (← at' rhs i) else .ok k) k.length 0 k

/-- `where(bool, value) op x` and the increments (`/repo/vir/simd.h` 2183-2234): `f` is the whole scalar update. -/
def whereBool (f : α → Outcome α) (k : Bool) (v : α) : Outcome α := if k then f v else .ok v

end Vir.Simd
