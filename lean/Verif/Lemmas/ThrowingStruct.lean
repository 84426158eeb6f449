import Verif.Lemmas.ForEachStruct
import Verif.Props.ForEachStruct
import Verif.Spec.ThrowingStruct

/-! # Lemmas about throwing callables on arrays of structs -/

namespace Vir.ForEachStruct
open Vir.ForEach Vir.Spec Vir.Simdize

variable {σ α : Type} {c : Nat} {F : Family} {e : Env}

/-- The callable, as a function of the structs in the lanes (in memory order). -/
def onStructsT (F : Family) (zero : α) (f : STCallable σ α c) : TCallable σ (Vector α c) where
  call s cs :=
    let r := f.call s (cs.map fun x => members (reorder (F.env x.length) x))
    (r.1, r.2.map fun r => (List.range cs.length).map fun j => lanesOf c zero (cs.getD j []).length (r.getD j []))
  shape s cs r h := by
    obtain ⟨r', _, rfl⟩ := Option.map_eq_some_iff.1 h
    apply List.ext_getElem
    · simp
    · intro j h1 h2
      have : j < cs.length := by simpa using h1
      simp [this]

theorem onStructsT_results (zero : α) (f : STCallable σ α c) (s : σ) {w : Nat} {cs : List (List (Vector α c))}
    (hcs : ∀ x ∈ cs, x.length = w) :
    ((onStructsT F zero f).call s cs).2.map (·.map members) =
      (f.call s (cs.map fun x => members (reorder (F.env w) x))).2 := by
  have hmap : (cs.map fun x => members (reorder (F.env x.length) x)) = cs.map fun x => members (reorder (F.env w) x) :=
    List.map_congr_left fun x hx => by rw [hcs x hx]
  unfold onStructsT
  dsimp only
  rw [hmap]
  cases hr : (f.call s (cs.map fun x => members (reorder (F.env w) x))).2 with
  | none => rfl
  | some r =>
    have hsh := f.shape s (cs.map fun x => members (reorder (F.env w) x)) w r (by
      intro v hv
      obtain ⟨x, hx, rfl⟩ := List.mem_map.1 hv
      have := members_shape (reorder (F.env w) x)
      rw [reorder_length, hcs x hx] at this
      exact this) hr
    rw [List.length_map] at hsh
    simp only [Option.map_some, Option.some.injEq]
    apply List.ext_getElem
    · simp [hsh.1]
    · intro j h1 h2
      have hj : j < cs.length := by simpa using h1
      have hw : cs[j].length = w := hcs _ (List.getElem_mem hj)
      simp only [List.getElem_map, List.getElem_range]
      rw [getD_lt hj, getD_lt h2, hw]
      exact members_lanesOf (hsh.2 _ (List.getElem_mem h2))

/-- The recorded invocation, with the structs in the order of the lanes. -/
def inLanes (F : Family) (ev : TEvent (Vector α c)) : TEvent (Vector α c) :=
  ⟨ev.args.map fun x => reorder (F.env x.length) x, ev.result⟩

/-- The record and the array, as the simdized structs and the members. -/
def flatLog (F : Family) (st : (σ × List (TEvent (Vector α c))) × List (Vector α c)) : (σ × List (TEvent (List α))) × List α :=
  ((st.1.1, st.1.2.map fun ev => simdized (inLanes F ev)), flat st.2)

theorem invSim_structT {zero : α} {junk : Nat → α} (hF : F.WF c) (ha : AlwaysAligned e) (W : Nat) (wb : Bool) (f : STCallable σ α c) :
    InvSim W (Sum.map (flatLog F) (flatLog F)) (ForEach.invokeT e wb (loggedT (onStructsT F zero f)))
      (invokeT F zero junk wb (loggedST f)) := by
  intro w aligned k pos st hw _
  cases st with
  | inr x => rfl
  | inl x =>
    obtain ⟨⟨s, log⟩, xs⟩ := x
    simp only [ForEach.invokeT, invokeT, flatLog, Sum.map_inl]
    refine Sim.bind' (sim_loadAll hF ha xs aligned hw k pos) fun cs hcs => ?_
    obtain ⟨_, hlen⟩ := loadAll_ok_length hcs
    have hmap : (cs.map fun x => members (reorder (F.env x.length) x)) = cs.map fun x => members (reorder (F.env w) x) :=
      List.map_congr_left fun x hx => by rw [hlen x hx]
    have hst : ((onStructsT F zero f).call s cs).1 = (f.call s (cs.map fun x => members (reorder (F.env w) x))).1 := by
      unfold onStructsT
      dsimp only
      rw [hmap]
    have hres := onStructsT_results (F := F) zero f s hlen
    have hlanes : ∀ a ∈ cs, members (reorder (F.env w) a) = members (reorder (F.env a.length) a) := fun a h => by rw [hlen a h]
    simp only [loggedT, loggedST, ← hres, ← hst]
    have hsh := (onStructsT F zero f).shape s cs
    cases hr : ((onStructsT F zero f).call s cs).2 with
    | none =>
      simpa [Sim, flatLog, simdized, inLanes] using hlanes
    | some r =>
      have hl : ∀ x ∈ r, x.length = w := by
        intro x hx
        have h2 : x.length ∈ r.map List.length := List.mem_map.2 ⟨x, hx, rfl⟩
        rw [hsh r hr] at h2
        obtain ⟨y, hy, he⟩ := List.mem_map.1 h2
        rw [← he, hlen y hy]
      cases wb with
      | false => simpa [Sim, flatLog, simdized, inLanes] using hlanes
      | true =>
        simp only [if_true, Option.map_some]
        refine (sim_storeAll hF ha aligned hw r hl pos xs).bind fun a => ?_
        simpa [Sim, flatLog, simdized, inLanes] using hlanes

theorem sim_structT {zero : α} {junk : Nat → α} (hF : F.WF c) (ha : AlwaysAligned e) (hs : 0 < e.size) (wb : Bool)
    (f : STCallable σ α c) (s : σ) (xs : List (Vector α c)) :
    Sim (Sum.map (flatLog F) (flatLog F)) (ForEach.forEachT e wb (loggedT (onStructsT F zero f)) (s, []) xs)
      (forEachT e F zero junk wb (loggedST f) (s, []) (flat xs)) := by
  unfold ForEach.forEachT forEachT
  rw [flat_length, Nat.mul_div_cancel _ hF.pos]
  exact sim_forEach (φ := Sum.map (flatLog F) (flatLog F)) (invSim_structT hF ha e.size wb f) hs xs.length (Sum.inl ((s, []), xs))

theorem forEachT_tame (hs : 0 < e.size) (F : Family) (zero : α) (junk : Nat → α) (wb : Bool) (f : STCallable σ α c) (s : σ)
    (mem : List α) : Sim id (forEachT e (tame F e.size) zero junk wb f s mem) (forEachT e F zero junk wb f s mem) := by
  refine sim_forEach (φ := id) (fun w aligned k pos st hw hW => ?_) hs _ (Sum.inl (s, mem) : TState σ α)
  unfold invokeT
  simp only [loadAll_tame F e.size zero junk _ hW, storeAll_tame F e.size junk hW, id]
  exact sim_refl _

theorem inLanes_perm (hF : F.WF c) (log : List (TEvent (Vector α c))) : (visitedT (log.map (inLanes F))).Perm (visitedT log) := by
  have inner : ∀ args : List (List (Vector α c)), ((args.map fun x => reorder (F.env x.length) x).flatten).Perm args.flatten := by
    intro args
    induction args with
    | nil => simp
    | cons x args ih =>
      simp only [List.map_cons, List.flatten_cons]
      exact (reorder_perm (hF.width _)).append ih
  unfold visitedT
  induction log with
  | nil => simp
  | cons ev log ih =>
    simp only [List.map_cons, List.flatten_cons] at ih ⊢
    exact (inner ev.args).append ih

theorem inLanes_ordered (ho : ∀ w, 0 < w → ¬ Unordered (F.env w)) (ev : TEvent (Vector α c)) : inLanes F ev = ev := by
  have hr : ∀ x : List (Vector α c), reorder (F.env x.length) x = x := by
    intro x
    cases x with
    | nil => exact List.eq_nil_of_length_eq_zero (by simp)
    | cons a x => exact reorder_ordered (ho _ (by simp)) _
  simp [inLanes, hr]

theorem inLanes_produced (log : List (TEvent (Vector α c))) : producedT (log.map (inLanes F)) = producedT log := by
  simp [producedT, inLanes, Function.comp_def]

end Vir.ForEachStruct
