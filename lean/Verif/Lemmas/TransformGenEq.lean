import Verif.Lemmas.TransformGen

/-! `transform` for `simd` elements is an instance of `transformG`. -/

namespace Vir.Transform
open Spec ForEach

variable {α : Type}

/-- Load and invoke for `k` chunks, then store the `k` results. -/
def chunks0 (t : TEnv) (op : VecOp α α) : TInv (List α) := fun w aligned k p1 d p2 mem => do
  let vs ← unrollLoads t op mem w k p1 p2
  unrollStores t aligned w vs d mem

theorem chunks0_one (t : TEnv) (op : VecOp α α) (w : Nat) (aligned : Bool) (p1 d p2 : Int) (mem : List α) :
    chunks0 t op w aligned 1 p1 d p2 mem = chunk t op aligned w p1 d p2 mem := by
  unfold chunks0 chunk unrollLoads unrollLoads
  cases loadAndInvoke t op mem w p1 p2 with
  | ok v =>
    simp only [Outcome.bind_ok, unrollStores]
    cases storeOut t mem aligned w d v <;> rfl
  | ub r => rfl
  | trap => rfl

theorem prologueRec_eqG (t : TEnv) (op : VecOp α α) (max tp k : Nat) (p d : Int) (mem : List α) :
    prologueRec t op max tp k p d mem = prologueRecG (chunks0 t op) max tp k p d mem := by
  induction h : max - 2 ^ k using Nat.strongRecOn generalizing k p d mem with
  | _ m ih =>
    unfold prologueRec prologueRecG
    simp only [chunks0_one]
    have key : ∀ (p d : Int) (mem : List α), (if _h : 2 ^ k * 2 < max then prologueRec t op max tp (k + 1) p d mem else .ok mem)
        = (if _h : 2 ^ k * 2 < max then prologueRecG (chunks0 t op) max tp (k + 1) p d mem else .ok mem) := by
      intro p d mem
      split
      · rename_i hlt
        have hp := Nat.two_pow_pos k
        exact ih _ (by rw [Nat.pow_succ] at *; omega) _ _ _ _ rfl
      · rfl
    simp only [key]

theorem epilogue_eqG (t : TEnv) (op : VecOp α α) (v0 l : Nat) (last d p2 : Int) (aligned : Bool) (mem : List α) :
    epilogue t op v0 l last d p2 aligned mem = epilogueG (chunks0 t op) v0 l last d p2 aligned mem := by
  induction v0 using Nat.strongRecOn generalizing l d p2 mem with
  | _ v0 ih =>
    unfold epilogue epilogueG
    simp only [chunks0_one]
    by_cases hv : v0 ≤ 1
    · rw [dif_pos hv, dif_pos hv]
    · rw [dif_neg hv, dif_neg hv]
      simp only [ih (stdBitCeil v0 / 2) (half_bitCeil_lt (by omega))]

theorem chunkStep_eqG (t : TEnv) (op : VecOp α α) (aligned : Bool) (w : Nat) :
    chunkStep t op aligned w = stepG (chunks0 t op) aligned w 1 := by
  funext p st
  simp only [chunkStep, stepG, chunks0_one, Nat.mul_one]

theorem unrolledLoop_eqG (t : TEnv) (op : VecOp α α) (p : Int) (st : LoopSt α) :
    unrolledLoop t op p st = unrolledLoopG t (chunks0 t op) p st := by
  unfold unrolledLoop unrolledLoopG
  split
  · dsimp only
    congr 1
    funext l
    congr 1
    funext p st
    simp only [stepG, chunks0, Outcome.bind_assoc]
  · rfl

/-- The model of `transform` is the instance of the general one. -/
theorem transform_eq_transformG (t : TEnv) (op : VecOp α α) (mem : List α) :
    transform t op mem = transformG t (chunks0 t op) mem := by
  unfold transform transformG
  simp only [prologueRec_eqG, epilogue_eqG, chunkStep_eqG, unrolledLoop_eqG]

end Vir.Transform
