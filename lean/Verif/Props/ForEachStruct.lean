import Verif.Lemmas.ForEachStruct
import Verif.Props.ForEach

/-!
# C53: `for_each` on arrays of structs

An array of structs is a `List (Vector α c)`; `flat` is its representation in memory and `members cs` the simdized struct with
the structs `cs` in its lanes (`Verif/Spec/Structs.lean`). `Unordered` (`Verif/Props/Simdize.lean`) is the case of three floats
with eight lanes, whose loads permute the lanes.
-/

namespace Vir.ForEachStruct
open Vir.ForEach Vir.Spec Vir.Simdize

variable {σ α : Type} {c : Nat}

/-- A range of structs: the alignment is `alignof(T)` for all widths (`/repo/vir/simdize.h` 387-388, 542-543), it divides
`sizeof(T)` and the address of the array. -/
structure StructRange (e : Env) (A : Nat) : Prop where
  size_pos : 0 < e.size
  sz_pos : 0 < e.sz
  align : e.al = fun _ => A
  align_pos : 0 < A
  align_dvd : A ∣ e.sz
  align_addr : A ∣ e.addr
  align_le : A ≤ 4000
  pol : e.pol.Reachable

theorem StructRange.wf {e : Env} {A : Nat} (h : StructRange e A) : e.WF :=
  fallback_wf e A h.size_pos h.sz_pos h.align_pos h.align_dvd h.align h.pol h.align_le

theorem StructRange.aligned {e : Env} {A : Nat} (h : StructRange e A) : AlwaysAligned e := by
  intro pos w
  unfold alignedAt
  rw [decide_eq_true_eq, h.align]
  obtain ⟨a, ha⟩ := h.align_addr
  obtain ⟨b, hb⟩ := h.align_dvd
  apply Int.emod_eq_zero_of_dvd
  refine ⟨a + pos * b, ?_⟩
  rw [ha, hb]
  push_cast
  rw [Int.mul_add, Int.mul_left_comm]

theorem StructRange.reaches {e : Env} {A : Nat} (h : StructRange e A) (n : Nat) : ReachesAlignment e n := by
  intro _ _ _ h4
  have := Nat.le_of_dvd h.sz_pos h.align_dvd
  rw [h.align] at h4
  simp only at h4
  omega

/-- The callable `f`, instrumented to record the simdized structs it is called with. -/
def SCallable.logged (f : SCallable σ α c) : SCallable (σ × List (List (List (List α)))) α c where
  call s vs := (((f.call s.1 vs).1, s.2 ++ [vs]), (f.call s.1 vs).2)
  shape s vs w h := f.shape s.1 vs w h

/-- Loads of all widths that are used keep the order of the structs. -/
def Ordered (F : Family) (e : Env) : Prop := ∀ w, 0 < w → w ≤ e.size → ¬ Unordered (F.env w)

/-! ## Helpers -/

/-- A family that does not differ from `F` up to width `W` and is ordered beyond. -/
def tame (F : Family) (W : Nat) : Family :=
  { F with env := fun w => if w ≤ W then F.env w else { F.env w with genericOnly := true } }

theorem tame_wf {F : Family} (hF : F.WF c) (W : Nat) : (tame F W).WF c := by
  refine ⟨hF.pos, fun w => ?_, fun w => ?_, fun w hw => ?_⟩
  · unfold tame; dsimp only; split
    · exact hF.width w
    · exact hF.width w
  · unfold tame; dsimp only; split
    · exact hF.count w
    · exact hF.count w
  · have := hF.valid w hw
    unfold tame; dsimp only; split
    · exact this
    · exact ⟨this.pos, this.count, this.float3, this.sizeR, this.float⟩

theorem tame_ordered {F : Family} {e : Env} (ho : Ordered F e) (w : Nat) (hw : 0 < w) : ¬ Unordered ((tame F e.size).env w) := by
  unfold tame
  dsimp only
  split
  · rename_i h; exact ho w hw h
  · intro h; exact absurd h.1 (by simp)

theorem sim_refl {A : Type} (x : Outcome A) : Sim id x x := by cases x <;> trivial

theorem loadAll_tame (F : Family) (W : Nat) (zero : α) (junk : Nat → α) (mem : List α) {w : Nat} (hw : w ≤ W) (k : Nat) (pos : Int) :
    loadAll (tame F W) zero junk mem w k pos = loadAll F zero junk mem w k pos := by
  induction k generalizing pos with
  | zero => rfl
  | succ k ih =>
    unfold loadAll
    rw [ih]
    unfold load tame
    dsimp only
    rw [if_pos hw]

theorem storeAll_tame (F : Family) (W : Nat) (junk : Nat → α) {w : Nat} (hw : w ≤ W) (vs : List (List (List α))) (pos : Int)
    (mem : List α) : storeAll (tame F W) junk w vs pos mem = storeAll F junk w vs pos mem := by
  induction vs generalizing pos mem with
  | nil => rfl
  | cons v vs ih =>
    unfold storeAll
    simp only [ih]
    unfold store tame
    dsimp only
    rw [if_pos hw]

theorem forEach_tame {e : Env} (hs : 0 < e.size) (F : Family) (zero : α) (junk : Nat → α) (wb : Bool) (f : SCallable σ α c) (s : σ)
    (mem : List α) :
    Sim id (forEach e (tame F e.size) zero junk wb f s mem) (forEach e F zero junk wb f s mem) := by
  refine sim_forEach (φ := id) (fun w aligned k pos st hw hW => ?_) hs _ (s, mem)
  unfold invoke
  simp only [loadAll_tame F e.size zero junk _ hW, storeAll_tame F e.size junk hW, id]
  exact sim_refl _

theorem onStructs_ordered (F : Family) (hF : F.WF c) (zero : α) (f : SCallable σ α c) (ho : ∀ w, 0 < w → ¬ Unordered (F.env w))
    (g : Vector α c → Vector α c)
    (hg : ∀ s (css : List (List (Vector α c))), (f.call s (css.map members)).2 = css.map fun cs => members (cs.map g)) (s : σ)
    (args : List (List (Vector α c))) : ((onStructs F zero f).call s args).2 = args.map (List.map g) := by
  have hr : ∀ x : List (Vector α c), reorder (F.env x.length) x = x := by
    intro x
    cases x with
    | nil => exact List.eq_nil_of_length_eq_zero (by simp)
    | cons a x => exact reorder_ordered (ho _ (by simp)) _
  unfold onStructs
  simp only [hr]
  have := hg s args
  apply List.ext_getElem
  · simp
  · intro j h1 h2
    have hj : j < args.length := by simpa using h1
    simp only [List.getElem_map, List.getElem_range]
    rw [getD_lt hj]
    have h3 : (f.call s (args.map members)).2.getD j [] = members (args[j].map g) := by
      rw [this]; simp [hj]
    rw [h3]
    have := lanesOf_members hF.pos zero (args[j].map g)
    rw [List.length_map] at this
    exact this

theorem onStructs_perm (F : Family) (hF : F.WF c) (zero : α) (f : SCallable σ α c) (g : Vector α c → Vector α c)
    (hg : ∀ s (css : List (List (Vector α c))), (f.call s (css.map members)).2 = css.map fun cs => members (cs.map g)) (s : σ)
    (args : List (List (Vector α c))) :
    ((onStructs F zero f).call s args).2.flatten.Perm (args.flatten.map g) := by
  have key : ((onStructs F zero f).call s args).2 = args.map fun x => (reorder (F.env x.length) x).map g := by
    have := hg s (args.map fun x => reorder (F.env x.length) x)
    rw [List.map_map, List.map_map] at this
    unfold onStructs
    dsimp only
    apply List.ext_getElem
    · simp
    · intro j h1 h2
      have hj : j < args.length := by simpa using h1
      simp only [List.getElem_map, List.getElem_range]
      rw [getD_lt hj]
      have h3 : (f.call s (args.map fun x => members (reorder (F.env x.length) x))).2.getD j []
          = members ((reorder (F.env args[j].length) args[j]).map g) := by
        have h4 : (f.call s (args.map fun x => members (reorder (F.env x.length) x))).2 = _ := this
        rw [h4]; simp [hj]
      rw [h3]
      have := lanesOf_members hF.pos zero ((reorder (F.env args[j].length) args[j]).map g)
      rw [List.length_map, reorder_length] at this
      exact this
  rw [key]
  clear key
  induction args with
  | nil => simp
  | cons x xs ih =>
    simp only [List.map_cons, List.flatten_cons, List.map_append]
    exact ((reorder_perm (hF.width _)).map g).append ih

theorem run_perm (f : Callable σ α) (g : α → α) (hg : ∀ s args, ((f.call s args).2.flatten).Perm (args.flatten.map g))
    (cs : List Call) (s : σ) (xs : List α) (h : Spec.elems cs = xs.length) : (run f true cs s xs).2.Perm (xs.map g) := by
  induction cs generalizing s xs with
  | nil =>
    have : xs = [] := List.eq_nil_of_length_eq_zero h.symm
    subst this; simp [run]
  | cons k cs ih =>
    rw [elems_cons] at h
    have h1 := ih (f.call s (chunks k.w k.k xs)).1 (xs.drop k.elems) (by simp; omega)
    have h2 := hg s (chunks k.w k.k xs)
    rw [chunks_flatten] at h2
    unfold run
    simp only [if_true]
    conv => rhs; rw [← List.take_append_drop k.elems xs, List.map_append]
    exact h2.append h1

/-! ## The theorems -/

variable {e : Env} {A : Nat} {F : Family}

/-- **C53**: every struct of the array is passed to the callable exactly once, whole, in one lane of one simdized struct, whatever
the policy; in the order of the array if the loads are ordered. -/
theorem forEachStruct_visits (hE : StructRange e A) (hF : F.WF c) (hce : e.constEval = false) (hpt : e.strictPtr = false)
    (zero : α) (junk : Nat → α) (wb : Bool) (f : SCallable σ α c) (s : σ) (xs : List (Vector α c)) (hf : e.Fits xs.length)
    (ha : e.pol.assumeMatchingSize = true → e.size ∣ xs.length) :
    ∃ (s' : σ) (css : List (List (List (Vector α c)))) (mem' : List α),
      forEach e F zero junk wb f.logged (s, []) (flat xs) = .ok ((s', css.map (·.map members)), mem') ∧
      forEach e F zero junk wb f s (flat xs) = .ok (s', mem') ∧
      css.flatten.flatten.Perm xs ∧ (Ordered F e → css.flatten.flatten = xs) := by
  have go : ∀ F : Family, F.WF c → ∃ (s' : σ) (css : List (List (List (Vector α c)))) (mem' : List α),
      forEach e F zero junk wb f.logged (s, []) (flat xs) = .ok ((s', css.map (·.map members)), mem') ∧
      forEach e F zero junk wb f s (flat xs) = .ok (s', mem') ∧
      css.flatten.flatten.Perm xs ∧ ((∀ w, 0 < w → ¬ Unordered (F.env w)) → css.flatten.flatten = xs) := by
    intro F hF
    obtain ⟨s', log, ys, h1, h2, h3⟩ := forEach_visits_once hE.wf hce hpt wb (onStructs F zero f) s xs hf (hE.reaches _) ha
    let conv : List (Event (Vector α c)) → List (List (List (Vector α c))) :=
      List.map fun ev => ev.args.map fun x => reorder (F.env x.length) x
    have h4 := forEach_state (e := e) (fun st : σ × List (Event (Vector α c)) => (st.1, (conv st.2).map (·.map members)))
      (logged (onStructs F zero f)) (onStructs F zero f.logged) (fun st cs => by
        simp [logged, onStructs, SCallable.logged, conv, Function.comp_def]) hE.size_pos wb (s, []) (s', log) xs ys h1
    refine ⟨s', conv log, flat ys, ?_, ?_, ?_, ?_⟩
    · exact (sim_struct hF hE.aligned hE.size_pos wb f.logged _ xs).of_ok h4
    · exact (sim_struct hF hE.aligned hE.size_pos wb f s xs).of_ok h3
    · rw [← h2]
      clear h1 h2 h3 h4
      have inner : ∀ args : List (List (Vector α c)), ((args.map fun x => reorder (F.env x.length) x).flatten).Perm args.flatten := by
        intro args
        induction args with
        | nil => simp
        | cons x args ih =>
          simp only [List.map_cons, List.flatten_cons]
          exact (reorder_perm (hF.width _)).append ih
      unfold visited
      induction log with
      | nil => simp [conv]
      | cons ev log ih =>
        simp only [conv, List.map_cons, List.flatten_cons, List.flatten_append] at ih ⊢
        exact (inner ev.args).append ih
    · intro ho
      rw [← h2]
      have hr : ∀ x : List (Vector α c), reorder (F.env x.length) x = x := by
        intro x
        cases x with
        | nil => exact List.eq_nil_of_length_eq_zero (by simp)
        | cons a x => exact reorder_ordered (ho _ (by simp)) _
      simp only [conv, hr, List.map_id']
      unfold visited
      clear h1 h2 h3 h4
      induction log with
      | nil => rfl
      | cons ev log ih => simp [ih]
  by_cases ho : Ordered F e
  · obtain ⟨s', css, mem', h1, h2, h3, h4⟩ := go (tame F e.size) (tame_wf hF _)
    exact ⟨s', css, mem', (forEach_tame hE.size_pos F zero junk wb f.logged _ _).of_ok h1,
      (forEach_tame hE.size_pos F zero junk wb f s _).of_ok h2, h3, fun _ => h4 (tame_ordered ho)⟩
  · obtain ⟨s', css, mem', h1, h2, h3, _⟩ := go F hF
    exact ⟨s', css, mem', h1, h2, h3, fun h => absurd h ho⟩

/-- **C53** (partial): a callable that changes every struct with `g` and writes back turns the array `xs` into `xs.map g`, if the
loads of the widths in use keep the order. -/
theorem forEachStruct_map_partial (hE : StructRange e A) (hF : F.WF c) (hce : e.constEval = false) (hpt : e.strictPtr = false)
    (zero : α) (junk : Nat → α) (f : SCallable σ α c) (g : Vector α c → Vector α c)
    (hg : ∀ s (css : List (List (Vector α c))), (f.call s (css.map members)).2 = css.map fun cs => members (cs.map g)) (s : σ)
    (xs : List (Vector α c)) (hf : e.Fits xs.length) (ha : e.pol.assumeMatchingSize = true → e.size ∣ xs.length)
    (ho : Ordered F e) :
    ∃ s', forEach e F zero junk true f s (flat xs) = .ok (s', flat (xs.map g)) := by
  obtain ⟨s', h⟩ := forEach_map hE.wf hce hpt (onStructs (tame F e.size) zero f) g
    (onStructs_ordered _ (tame_wf hF _) zero f (tame_ordered ho) g hg) s xs hf (hE.reaches _) ha
  refine ⟨s', (forEach_tame hE.size_pos F zero junk true f s _).of_ok ?_⟩
  exact (sim_struct (tame_wf hF _) hE.aligned hE.size_pos true f s xs).of_ok h

/-- **C53**: with unordered loads, too, the array ends up with the same structs, but possibly in a different order. -/
theorem forEachStruct_map_perm (hE : StructRange e A) (hF : F.WF c) (hce : e.constEval = false) (hpt : e.strictPtr = false)
    (zero : α) (junk : Nat → α) (f : SCallable σ α c) (g : Vector α c → Vector α c)
    (hg : ∀ s (css : List (List (Vector α c))), (f.call s (css.map members)).2 = css.map fun cs => members (cs.map g)) (s : σ)
    (xs : List (Vector α c)) (hf : e.Fits xs.length) (ha : e.pol.assumeMatchingSize = true → e.size ∣ xs.length) :
    ∃ s' ys, forEach e F zero junk true f s (flat xs) = .ok (s', flat ys) ∧ ys.Perm (xs.map g) := by
  have hp := (reaches_iff hE.wf).1 (hE.reaches xs.length)
  have h := forEach_eq_run hE.wf hce hf hp (by simp [hpt]) ha true (onStructs F zero f) s xs rfl
  refine ⟨_, _, (sim_struct hF hE.aligned hE.size_pos true f s xs).of_ok h, ?_⟩
  exact run_perm _ g (onStructs_perm F hF zero f g hg) _ _ _ (elems_callsOf hE.size_pos hp)

/-- **C53**: a callable that takes its arguments by value or by const reference leaves the array unchanged. -/
theorem forEachStruct_no_write (hE : StructRange e A) (hF : F.WF c) (hce : e.constEval = false) (hpt : e.strictPtr = false)
    (zero : α) (junk : Nat → α) (f : SCallable σ α c) (s : σ) (xs : List (Vector α c)) (hf : e.Fits xs.length)
    (ha : e.pol.assumeMatchingSize = true → e.size ∣ xs.length) :
    ∃ s', forEach e F zero junk false f s (flat xs) = .ok (s', flat xs) := by
  obtain ⟨s', h⟩ := forEach_no_write hE.wf hce hpt (onStructs F zero f) s xs hf (hE.reaches _) ha
  exact ⟨s', (sim_struct hF hE.aligned hE.size_pos false f s xs).of_ok h⟩

/-- **C53**: `for_each` on structs never has undefined behaviour, not even with `prefer_aligned` on short ranges (compare C05):
there is no prologue for structs. -/
theorem forEachStruct_defined (hE : StructRange e A) (hF : F.WF c) (hce : e.constEval = false) (hpt : e.strictPtr = false)
    (zero : α) (junk : Nat → α) (wb : Bool) (f : SCallable σ α c) (s : σ) (xs : List (Vector α c)) (hf : e.Fits xs.length) :
    (forEach e F zero junk wb f s (flat xs)).Defined := by
  by_cases ha : e.pol.assumeMatchingSize = true ∧ ¬ e.size ∣ xs.length
  · have h := sim_struct (zero := zero) (junk := junk) hF hE.aligned hE.size_pos wb f s xs
    rw [forEach_assume_traps ha.1 wb _ s xs ha.2] at h
    revert h
    cases forEach e F zero junk wb f s (flat xs) <;> simp [Sim, Outcome.Defined]
  · obtain ⟨s', css, mem', _, h, _⟩ := forEachStruct_visits hE hF hce hpt zero junk wb f s xs hf
      (fun h => Classical.byContradiction fun h' => ha ⟨h, h'⟩)
    rw [h]; trivial

/-! ### Instances -/

/-- `struct Point<float> { float x, y, z; }` on AVX: eight lanes by default. -/
def pointEnv : Env := { size := 8, sz := 12, al := fun _ => 4, pol := ⟨[]⟩, addr := 4 }
def pointFamily : Family where
  env w := { f3x8 with n := w }
  perm _ := pf8
/-- The same struct on SSE: four lanes. -/
def pointEnv4 : Env := { pointEnv with size := 4 }

theorem pointFamily_wf : pointFamily.WF 3 := by
  refine ⟨by omega, fun _ => rfl, fun _ => rfl, fun w hw => ⟨hw, (by decide : 0 < 3), fun _ => rfl, fun _ _ => rfl, fun _ => rfl⟩⟩

example : StructRange pointEnv 4 ∧ StructRange pointEnv4 4 ∧ pointEnv.Fits 21 ∧ Ordered pointFamily pointEnv4 := by
  refine ⟨⟨by decide, by decide, rfl, by decide, by decide, by decide, by decide, ⟨[], by decide⟩⟩,
    ⟨by decide, by decide, rfl, by decide, by decide, by decide, by decide, ⟨[], by decide⟩⟩, by unfold Env.Fits; decide, ?_⟩
  intro w _ h2 hu
  have h8 : w = 8 := hu.2.2.2.2.1
  have h4 : w ≤ 4 := h2
  omega

/-- The callable that does nothing. -/
def nop : SCallable Unit Nat 3 where
  call s vs := (s, vs)
  shape _ _ _ h := ⟨rfl, h⟩

-- it satisfies the hypothesis of `forEachStruct_map_partial` with `g = id`
example : ∀ s (css : List (List (Vector Nat 3))), (nop.call s (css.map members)).2 = css.map fun cs => members (cs.map id) := by
  intro s css; simp [nop]

-- ten structs: with four lanes nothing changes
example : forEach pointEnv4 pointFamily 0 (fun _ => 0) true nop () (List.range 30) = .ok ((), List.range 30) := by decide +kernel

/-- **C53** is false as stated for unordered loads: on AVX, `for_each` with a callable that does nothing permutes the array. -/
theorem forEachStruct_scrambles : ∃ mem', forEach pointEnv pointFamily 0 (fun _ => 0) true nop () (List.range 30) = .ok ((), mem') ∧
    mem' ≠ List.range 30 ∧
    mem' = [0, 1, 2, 9, 10, 11, 18, 19, 20, 3, 4, 5, 12, 13, 14, 21, 22, 23, 6, 7, 8, 15, 16, 17, 24, 25, 26, 27, 28, 29] :=
  ⟨_, by decide +kernel, by decide, rfl⟩

/-! ## The theorems applied to concrete data -/

private theorem points : StructRange pointEnv4 4 ∧ StructRange pointEnv 4 ∧ Ordered pointFamily pointEnv4 := by
  refine ⟨⟨by decide, by decide, rfl, by decide, by decide, by decide, by decide, ⟨[], by decide⟩⟩,
    ⟨by decide, by decide, rfl, by decide, by decide, by decide, by decide, ⟨[], by decide⟩⟩, ?_⟩
  intro w _ h2 hu
  have h8 : w = 8 := hu.2.2.2.2.1
  have h4 : w ≤ 4 := h2
  omega

private def threePoints : List (Vector Nat 3) := [#v[1, 2, 3], #v[4, 5, 6], #v[7, 8, 9]]

private theorem unchanged : ∀ s (css : List (List (Vector Nat 3))), (nop.call s (css.map members)).2 = css.map fun cs => members (cs.map id) := by
  intro s css; simp [nop]

example := forEachStruct_visits points.2.1 pointFamily_wf rfl rfl 0 (fun _ => 0) true nop () threePoints (by unfold Env.Fits; decide) (by decide)
example := forEachStruct_map_partial points.1 pointFamily_wf rfl rfl 0 (fun _ => 0) nop id unchanged () threePoints (by unfold Env.Fits; decide)
  (by decide) points.2.2
example := forEachStruct_map_perm points.2.1 pointFamily_wf rfl rfl 0 (fun _ => 0) nop id unchanged () threePoints (by unfold Env.Fits; decide)
  (by decide)
example := forEachStruct_no_write points.2.1 pointFamily_wf rfl rfl 0 (fun _ => 0) nop () threePoints (by unfold Env.Fits; decide) (by decide)
example := forEachStruct_defined points.2.1 pointFamily_wf rfl rfl 0 (fun _ => 0) true nop () threePoints (by unfold Env.Fits; decide)

end Vir.ForEachStruct
