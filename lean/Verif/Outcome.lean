/-!
# Outcome of running a piece of C++

`Outcome α` is the result of an execution: a value, undefined behaviour (with the reason), or the trap of a
failed `vir_simd_precondition` (`/repo/vir/simd.h` 40-174, default `VIR_CHECK_PRECONDITIONS == 3`: "trap").
-/

namespace Vir

/-- Reasons for an execution to be meaningless. `diverge` marks a loop that exceeds its iteration bound,
`staticAssert` an instantiation that violates a `static_assert` (the program would not compile). -/
inductive UB where
  | oob
  | misaligned
  | unreachable
  | overflow
  | badPointer
  | diverge
  | staticAssert
  | uninit
  | div0
  | shift
deriving DecidableEq, Repr

/-- Result of an execution. -/
inductive Outcome (α : Type u) where
  | ok (a : α)
  | ub (r : UB)
  | trap
deriving DecidableEq, Repr

namespace Outcome

@[inline] def bind {α : Type u} {β : Type v} (x : Outcome α) (f : α → Outcome β) : Outcome β :=
  match x with
  | ok a => f a
  | ub r => ub r
  | trap => trap

instance : Monad Outcome where
  pure := ok
  bind := bind

@[simp] theorem bind_ok {α : Type u} {β : Type u} (a : α) (f : α → Outcome β) :
    ((Outcome.ok a) >>= f) = f a := rfl
@[simp] theorem bind_ub {α β : Type u} (r : UB) (f : α → Outcome β) :
    ((Outcome.ub r : Outcome α) >>= f) = Outcome.ub r := rfl
@[simp] theorem bind_trap {α β : Type u} (f : α → Outcome β) :
    ((Outcome.trap : Outcome α) >>= f) = Outcome.trap := rfl
@[simp] theorem pure_eq {α : Type u} (a : α) : (pure a : Outcome α) = Outcome.ok a := rfl

/-- The execution is defined: no undefined behaviour (a trap is a defined outcome). -/
def Defined {α : Type u} : Outcome α → Prop
  | ub _ => False
  | _ => True

theorem bind_assoc {α β γ : Type u} (x : Outcome α) (f : α → Outcome β) (g : β → Outcome γ) :
    (x >>= f) >>= g = x >>= fun a => f a >>= g := by
  cases x <;> rfl

end Outcome
end Vir
