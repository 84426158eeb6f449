import Verif.Lemmas.CountIfStruct
import Verif.Props.CountIf
import Verif.Props.ForEachStruct

/-!
# C102: `count_if` on arrays of structs

`flat xs` is the array `xs` in memory and `members cs` the simdized struct with the structs `cs` in its lanes
(`Verif/Spec/Structs.lean`). The theorems hold for all families of simdized structs, also those whose loads permute the lanes (C53).
-/

namespace Vir
open Vir.Spec Vir.CountIf Vir.ForEach Vir.ForEachStruct Vir.CountIfStruct

variable {α : Type} {c : Nat} {e : Env} {A : Nat} {F : Family}

/-- **C102 (arbitrary predicate).** The predicate is applied to simdized structs whose lanes together are the structs of the array,
each once; the result is the number of `true` lanes it returned, if that is representable in `int`. -/
theorem countIfStruct_pieces (hE : StructRange e A) (hF : F.WF c) (hce : e.constEval = false) (hpt : e.strictPtr = false) (zero : α)
    (junk : Nat → α) (ps : Bool) {hred : List (Outcome Int) → Outcome Int} (hh : SumsLanes e.size hred) (p : SPred α c)
    (xs : List (Vector α c)) (hf : e.Fits xs.length) (ha : e.pol.assumeMatchingSize = true → e.size ∣ xs.length) :
    ∃ pieces : List (List (Vector α c)), pieces.flatten.Perm xs ∧
      countIfStruct e F zero junk ps hred p (flat xs) =
        if (pieces.map fun cs => (p.call (members cs)).count true).sum < 2 ^ 31
        then .ok ((pieces.map fun cs => (p.call (members cs)).count true).sum : Nat) else .ub .overflow := by
  have hp := (reaches_iff hE.wf).1 (hE.reaches xs.length)
  have hel := elems_callsOf hE.size_pos hp
  refine ⟨(allChunks (callsOf e xs.length) xs).map fun x => reorder (F.env x.length) x, ?_, ?_⟩
  · have : (allChunks (callsOf e xs.length) xs).flatten = xs := by rw [allChunks_flatten, hel, List.take_length]
    conv => rhs; rw [← this]
    generalize allChunks (callsOf e xs.length) xs = L
    induction L with
    | nil => simp
    | cons x L ih =>
      simp only [List.map_cons, List.flatten_cons]
      exact (reorder_perm (hF.width _)).append ih
  · have hJ := J_run (ps := ps) (onStructsP F p) _ (callsOf_ok hE.size_pos hce xs.length) _ _ xs (Nat.le_of_eq hel) (J_init e.size)
    rw [Nat.zero_add] at hJ
    rw [countIfStruct_eq hF hE.aligned hE.size_pos zero junk ps hred p xs
      (forEach_eq_run hE.wf hce hf hp (by simp [hpt]) ha false _ _ xs rfl), List.map_map]
    exact final_sum hh hJ

/-- **C102.** For a predicate that tests each struct on its own, `count_if` returns the number of structs satisfying it, if that number
is representable in `int`; otherwise a counter overflows. -/
theorem countIfStruct_spec (hE : StructRange e A) (hF : F.WF c) (hce : e.constEval = false) (hpt : e.strictPtr = false) (zero : α)
    (junk : Nat → α) (ps : Bool) {hred : List (Outcome Int) → Outcome Int} (hh : SumsLanes e.size hred) (p : SPred α c)
    (q : Vector α c → Bool) (hq : ∀ cs, p.call (members cs) = cs.map q) (xs : List (Vector α c)) (hf : e.Fits xs.length)
    (ha : e.pol.assumeMatchingSize = true → e.size ∣ xs.length) :
    countIfStruct e F zero junk ps hred p (flat xs) =
      if xs.countP q < 2 ^ 31 then .ok (xs.countP q : Int) else .ub .overflow := by
  have hp := (reaches_iff hE.wf).1 (hE.reaches xs.length)
  have hel := elems_callsOf hE.size_pos hp
  have hJ := J_run (ps := ps) (onStructsP F p) _ (callsOf_ok hE.size_pos hce xs.length) _ _ xs (Nat.le_of_eq hel) (J_init e.size)
  rw [Nat.zero_add, count_structs hF hq, allChunks_flatten, hel, List.take_length] at hJ
  rw [countIfStruct_eq hF hE.aligned hE.size_pos zero junk ps hred p xs
    (forEach_eq_run hE.wf hce hf hp (by simp [hpt]) ha false _ _ xs rfl)]
  exact final_sum hh hJ

/-- **C102 (constant evaluation).** The same during constant evaluation, except for the width and lengths for which `for_each` itself
is wrong (C09). -/
theorem countIfStruct_const_partial (hE : StructRange e A) (hF : F.WF c) (hce : e.constEval = true) (hpt : e.strictPtr = false)
    (zero : α) (junk : Nat → α) (ps : Bool) {hred : List (Outcome Int) → Outcome Int} (hh : SumsLanes e.size hred) (p : SPred α c)
    (q : Vector α c → Bool) (hq : ∀ cs, p.call (members cs) = cs.map q) (xs : List (Vector α c))
    (h2 : xs.length = 0 ∨ e.size ≠ 2 ∨ xs.length % 2 = 1) (ha : e.pol.assumeMatchingSize = true → e.size ∣ xs.length) :
    countIfStruct e F zero junk ps hred p (flat xs) =
      if xs.countP q < 2 ^ 31 then .ok (xs.countP q : Int) else .ub .overflow := by
  have hel := elems_constCallsOf e xs.length
  have hJ := J_run (ps := ps) (onStructsP F p) _ (constCallsOf_ok hE.size_pos xs.length) _ _ xs (Nat.le_of_eq hel) (J_init e.size)
  rw [Nat.zero_add, count_structs hF hq, allChunks_flatten, hel, List.take_length] at hJ
  rw [countIfStruct_eq hF hE.aligned hE.size_pos zero junk ps hred p xs
    (constForEach_eq_run hE.size_pos hce (by simp [hpt]) h2 ha false _ _ xs rfl)]
  exact final_sum hh hJ

/-- **C102 (constant evaluation, the excluded case).** With width 2 and a non-empty array of even length the last struct is counted
twice. -/
theorem countIfStruct_const_width2 (hE : StructRange e A) (hF : F.WF c) (h2 : e.size = 2) (hce : e.constEval = true)
    (hpt : e.strictPtr = false) (zero : α) (junk : Nat → α) (ps : Bool) {hred : List (Outcome Int) → Outcome Int}
    (hh : SumsLanes e.size hred) (p : SPred α c) (q : Vector α c → Bool) (hq : ∀ cs, p.call (members cs) = cs.map q)
    (xs : List (Vector α c)) (hn : xs.length ≠ 0) (hev : xs.length % 2 = 0) :
    ∃ last, xs = xs.dropLast ++ [last] ∧ countIfStruct e F zero junk ps hred p (flat xs) =
      if (xs ++ [last]).countP q < 2 ^ 31 then .ok ((xs ++ [last]).countP q : Int) else .ub .overflow := by
  obtain ⟨last, hl, h⟩ := constForEach_width2 h2 hce hpt hn hev (CountIf.callable e ps (onStructsP F p))
    (.ok (0, List.replicate e.size 0)) xs rfl
  refine ⟨last, hl, ?_⟩
  have hel : elems (List.replicate (xs.length / 2) (⟨2, 1⟩ : Call)) = xs.length := by
    simp [Call.elems]; omega
  have hJ := J_run (e := e) (ps := ps) (onStructsP F p) (List.replicate (xs.length / 2) ⟨2, 1⟩)
    (fun c hc => by rw [(List.mem_replicate.1 hc).2]; exact ⟨by simp, Or.inl rfl⟩) _ _ xs (Nat.le_of_eq hel) (J_init e.size)
  rw [Nat.zero_add, count_structs hF hq, allChunks_flatten, hel, List.take_length] at hJ
  have hJ' := J_call (e := e) (ps := ps) (onStructsP F p) [[last]] _ _ (Or.inl ⟨[last], rfl, by simp⟩) hJ
  rw [count_structs hF hq] at hJ'
  rw [countIfStruct_eq hF hE.aligned hE.size_pos zero junk ps hred p xs h, List.countP_append]
  exact final_sum hh hJ'

/-! ## The theorems applied to concrete data -/

/-- `p.x + p.y > p.z`, lane by lane. -/
private def flatter : SPred Nat 3 where
  call v := List.zipWith (fun a b => decide (b < a)) (List.zipWith (· + ·) (v.getD 0 []) (v.getD 1 [])) (v.getD 2 [])
  shape v w h hw := by
    match v, h with
    | [x, y, z], _ => simp [hw x, hw y, hw z]

private theorem flatter_lanes (cs : List (Vector Nat 3)) :
    flatter.call (members cs) = cs.map fun x => decide (x[2] < x[0] + x[1]) := by
  induction cs with
  | nil => rfl
  | cons x cs ih =>
    simp only [flatter, members, List.ofFn_succ, List.ofFn_zero, List.getD_cons_zero, List.getD_cons_succ, List.map_cons,
      List.zipWith_cons_cons] at ih ⊢
    rw [ih]
    rfl

private theorem pointRange : StructRange pointEnv 4 :=
  ⟨by decide, by decide, rfl, by decide, by decide, by decide, by decide, ⟨[], by decide⟩⟩

private def pts : List (Vector Nat 3) := (List.range 11).map fun i => #v[i, 3, 5]

-- eleven structs of three floats on AVX, whose loads permute the lanes
example : countIfStruct pointEnv pointFamily 0 (fun _ => 0) true fallbackSum flatter (flat pts) = .ok 8 :=
  (countIfStruct_spec pointRange pointFamily_wf rfl rfl 0 (fun _ => 0) true (fallbackSum_sumsLanes (by decide) (by decide)) flatter _
    flatter_lanes pts (by unfold Env.Fits; decide) (by decide)).trans (by decide +kernel)
-- computed from the model, without the theorem
example : countIfStruct pointEnv pointFamily 0 (fun _ => 0) true fallbackSum flatter (flat pts) = .ok 8 := by decide +kernel
example := countIfStruct_pieces pointRange pointFamily_wf rfl rfl 0 (fun _ => 0) true (fallbackSum_sumsLanes (by decide) (by decide))
  flatter pts (by unfold Env.Fits; decide) (by decide)
example := countIfStruct_const_partial (e := { pointEnv with constEval := true }) (A := 4)
  ⟨by decide, by decide, rfl, by decide, by decide, by decide, by decide, ⟨[], by decide⟩⟩ pointFamily_wf rfl rfl 0 (fun _ => 0) true
  (fallbackSum_sumsLanes (w := 8) (by decide) (by decide)) flatter _ flatter_lanes pts (by decide) (by decide)
example := countIfStruct_const_width2 (e := { pointEnv with constEval := true, size := 2 }) (A := 4)
  ⟨by decide, by decide, rfl, by decide, by decide, by decide, by decide, ⟨[], by decide⟩⟩ pointFamily_wf rfl rfl rfl 0 (fun _ => 0) true
  (fallbackSum_sumsLanes (w := 2) (by decide) (by decide)) flatter _ flatter_lanes (pts.take 10) (by decide) (by decide)

end Vir
