import Verif.Model.Benchmarking
import Mathlib.Data.List.Forall2

/-! # What benchmarks rely on -/

namespace Vir.Spec
open Benchmarking

/-- The parts of an object, in order. -/
def parts : Obj → List (List UInt8)
  | .leaf x => [x.bytes]
  | .tuple es => es.map Leaf.bytes
  | .wrapped d => [d.bytes]
  | .plain d => [d.bytes]
  | .virSimd b => [b]

/-- Which parts of an object belong into vector registers: floating-point values, and values of at least 16 bytes. -/
def vectorParts : Obj → List Bool
  | .leaf x => [x.isFloat || decide (16 ≤ x.bytes.length)]
  | .tuple es => es.map fun x => x.isFloat || decide (16 ≤ x.bytes.length)
  | .wrapped d => [d.isFloat || decide (16 ≤ d.bytes.length)]
  | .plain d => [d.isFloat || decide (16 ≤ d.bytes.length)]
  | .virSimd b => [decide (16 ≤ b.length)]

/-- The statement `a` can have its operand in a vector register exactly if the target has the registers (`x86`) and the operand belongs
into one (`v`). -/
def Registers (x86 : Bool) (a : Asm) (v : Bool) : Prop :=
  (Alt.v ∈ a.alts ↔ x86 = true ∧ v = true) ∧ (Alt.x ∈ a.alts ↔ x86 = true ∧ v = true)

/-- The same type, except for the value. -/
def SameLeaf (x y : Leaf) : Prop := x.isFloat = y.isFloat ∧ x.bytes.length = y.bytes.length

/-- Two objects of the same type. -/
inductive SameType : Obj → Obj → Prop where
  | leaf {x y} (h : SameLeaf x y) : SameType (.leaf x) (.leaf y)
  | tuple {xs ys} (h : List.Forall₂ SameLeaf xs ys) : SameType (.tuple xs) (.tuple ys)
  | wrapped {x y} (h : SameLeaf x y) : SameType (.wrapped x) (.wrapped y)
  | plain {x y} (h : SameLeaf x y) : SameType (.plain x) (.plain y)
  | virSimd {b c} (h : b.length = c.length) : SameType (.virSimd b) (.virSimd c)

/-- What the compiler may assume about the outputs of the statements: nothing but the size of the operands. -/
def Havoc (h : Nat → List UInt8 → List UInt8) : Prop := ∀ k b, (h k b).length = b.length

end Vir.Spec
