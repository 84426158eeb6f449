import Verif.Model.CountIfStruct
import Verif.Lemmas.CountIf
import Verif.Lemmas.ForEachStruct

/-! # Lemmas about `count_if` on arrays of structs -/

namespace Vir.CountIfStruct
open Vir.ForEach Vir.Spec Vir.CountIf Vir.ForEachStruct

variable {α : Type} {c : Nat}

/-- Without write-back only the states returned by the callable matter. -/
theorem forEach_states {σ : Type} {e : Env} {f f' : Callable σ α} (h : ∀ s cs, (f.call s cs).1 = (f'.call s cs).1) (s : σ) (xs : List α) :
    ForEach.forEach e false f s xs = ForEach.forEach e false f' s xs := by
  rw [forEach_eq_forEachG, forEach_eq_forEachG]
  have : loadAndInvoke e false f = loadAndInvoke e false f' := by
    funext w aligned k pos st
    unfold loadAndInvoke
    simp [h]
  rw [this]

/-- The predicate, as a function of the structs in memory order. -/
def onStructsP (F : Family) (p : SPred α c) : Pred (Vector α c) where
  call cs := p.call (members (reorder (F.env cs.length) cs))
  shape cs := by
    have := members_shape (reorder (F.env cs.length) cs)
    rw [reorder_length] at this
    exact p.shape _ _ this.1 this.2

theorem width_members (hc : 0 < c) (cs : List (Vector α c)) : width (members cs) = cs.length := by
  obtain ⟨c, rfl⟩ : ∃ d, c = d + 1 := ⟨c - 1, by omega⟩
  simp [width, members, List.ofFn_succ]

theorem lambda_eq {F : Family} (hc : 0 < c) (e : Env) (ps : Bool) (p : SPred α c) (args : List (List (Vector α c))) (s : Int × List Int) :
    lambda e ps p (args.map fun x => members (reorder (F.env x.length) x)) s = CountIf.lambda e ps (onStructsP F p) args s := by
  unfold lambda CountIf.lambda
  split
  · unfold incCountAll CountIf.incCountAll
    simp only [← List.map_dropLast, List.foldr_map, List.getLast?_map, onStructsP]
    cases args.getLast? <;> rfl
  · match args with
    | [] => rfl
    | [x] =>
      simp only [List.map_cons, List.map_nil, width_members hc, reorder_length]
      rfl
    | x :: y :: r =>
      simp only [List.map_cons, List.foldl_cons, List.foldl_map]
      rfl

theorem callable_state {F : Family} (hc : 0 < c) (zero : α) (e : Env) (ps : Bool) (p : SPred α c) (s : Counters)
    (args : List (List (Vector α c))) :
    ((onStructs F zero (callable e ps p)).call s args).1 = ((CountIf.callable e ps (onStructsP F p)).call s args).1 := by
  simp only [onStructs, callable, CountIf.callable, lambda_eq hc]

/-- What `count_if` does with the array of structs, if `for_each` is defined on it. -/
theorem countIfStruct_eq {F : Family} {e : Env} (hF : F.WF c) (ha : AlwaysAligned e) (hs : 0 < e.size) (zero : α) (junk : Nat → α)
    (ps : Bool) (hred : List (Outcome Int) → Outcome Int) (p : SPred α c) (xs : List (Vector α c)) {r : Counters × List (Vector α c)}
    (h : ForEach.forEach e false (CountIf.callable e ps (onStructsP F p)) (.ok (0, List.replicate e.size 0)) xs = .ok r) :
    countIfStruct e F zero junk ps hred p (flat xs) = (do let (count, countv) ← r.1; addInt count (← sumCountv hred countv)) := by
  rw [forEach_states (fun s cs => (callable_state hF.pos zero e ps p s cs).symm)] at h
  rw [countIfStruct, (sim_struct (junk := junk) hF ha hs false _ _ xs).of_ok h]
  rfl

/-- The number of structs in a piece that satisfy the predicate does not depend on the order of the lanes. -/
theorem count_structs {F : Family} (hF : F.WF c) {p : SPred α c} {q : Vector α c → Bool} (hq : ∀ cs, p.call (members cs) = cs.map q)
    (L : List (List (Vector α c))) :
    (L.map fun x => ((onStructsP F p).call x).count true).sum = L.flatten.countP q := by
  induction L with
  | nil => rfl
  | cons x L ih =>
    have : ((onStructsP F p).call x).count true = x.countP q := by
      rw [onStructsP]
      dsimp only
      rw [hq, List.count_eq_countP, List.countP_map, ← (reorder_perm (hF.width x.length)).countP_eq]
      congr 1
      funext a
      simp
    rw [List.map_cons, List.sum_cons, List.flatten_cons, List.countP_append, ih, this]

end Vir.CountIfStruct
