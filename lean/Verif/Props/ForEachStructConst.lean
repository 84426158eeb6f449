import Verif.Props.ForEachStruct

/-!
# C53: `for_each` on arrays of structs during constant evaluation

The loads are the ones of run time; where they cannot be evaluated at compile time the call is no constant expression.
-/

namespace Vir.ForEachStruct
open Vir.ForEach Vir.Spec Vir.Simdize

variable {σ α : Type} {c : Nat} {e : Env} {A : Nat} {F : Family}

/-- What `for_each` visits on the list of structs is what it visits on the array. -/
theorem visits_of {wb : Bool} {s : σ} {xs vs : List (Vector α c)}
    (H : ∀ f : Callable σ (Vector α c), ∃ s' log ys, ForEach.forEach e wb (logged f) (s, []) xs = .ok ((s', log), ys) ∧ visited log = vs)
    (hs : 0 < e.size) (ha : AlwaysAligned e) (hF : F.WF c) (zero : α) (junk : Nat → α) (f : SCallable σ α c) :
    ∃ (s' : σ) (css : List (List (List (Vector α c)))) (mem' : List α),
      forEach e F zero junk wb f.logged (s, []) (flat xs) = .ok ((s', css.map (·.map members)), mem') ∧
      forEach e F zero junk wb f s (flat xs) = .ok (s', mem') ∧
      css.flatten.flatten.Perm vs ∧ (Ordered F e → css.flatten.flatten = vs) := by
  have go : ∀ F : Family, F.WF c → ∃ (s' : σ) (css : List (List (List (Vector α c)))) (mem' : List α),
      forEach e F zero junk wb f.logged (s, []) (flat xs) = .ok ((s', css.map (·.map members)), mem') ∧
      forEach e F zero junk wb f s (flat xs) = .ok (s', mem') ∧
      css.flatten.flatten.Perm vs ∧ ((∀ w, 0 < w → ¬ Unordered (F.env w)) → css.flatten.flatten = vs) := by
    intro F hF
    obtain ⟨s', log, ys, h1, h2⟩ := H (onStructs F zero f)
    have h3 : ForEach.forEach e wb (onStructs F zero f) s xs = .ok (s', ys) :=
      forEach_state (e := e) Prod.fst (logged (onStructs F zero f)) (onStructs F zero f) (fun st cs => rfl) hs wb (s, []) (s', log) xs ys h1
    let conv : List (Event (Vector α c)) → List (List (List (Vector α c))) :=
      List.map fun ev => ev.args.map fun x => reorder (F.env x.length) x
    have h4 := forEach_state (e := e) (fun st : σ × List (Event (Vector α c)) => (st.1, (conv st.2).map (·.map members)))
      (logged (onStructs F zero f)) (onStructs F zero f.logged) (fun st cs => by
        simp [logged, onStructs, SCallable.logged, conv, Function.comp_def]) hs wb (s, []) (s', log) xs ys h1
    refine ⟨s', conv log, flat ys, ?_, ?_, ?_, ?_⟩
    · exact (sim_struct hF ha hs wb f.logged _ xs).of_ok h4
    · exact (sim_struct hF ha hs wb f s xs).of_ok h3
    · rw [← h2]
      clear h1 h2 h3 h4
      have inner : ∀ args : List (List (Vector α c)), ((args.map fun x => reorder (F.env x.length) x).flatten).Perm args.flatten := by
        intro args
        induction args with
        | nil => simp
        | cons x args ih =>
          simp only [List.map_cons, List.flatten_cons]
          exact (reorder_perm (hF.width _)).append ih
      unfold visited
      induction log with
      | nil => simp [conv]
      | cons ev log ih =>
        simp only [conv, List.map_cons, List.flatten_cons, List.flatten_append] at ih ⊢
        exact (inner ev.args).append ih
    · intro ho
      rw [← h2]
      have hr : ∀ x : List (Vector α c), reorder (F.env x.length) x = x := by
        intro x
        cases x with
        | nil => exact List.eq_nil_of_length_eq_zero (by simp)
        | cons a x => exact reorder_ordered (ho _ (by simp)) _
      simp only [conv, hr, List.map_id']
      unfold visited
      clear h1 h2 h3 h4
      induction log with
      | nil => rfl
      | cons ev log ih => simp [ih]
  by_cases ho : Ordered F e
  · obtain ⟨s', css, mem', h1, h2, h3, h4⟩ := go (tame F e.size) (tame_wf hF _)
    exact ⟨s', css, mem', (forEach_tame hs F zero junk wb f.logged _ _).of_ok h1,
      (forEach_tame hs F zero junk wb f s _).of_ok h2, h3, fun _ => h4 (tame_ordered ho)⟩
  · obtain ⟨s', css, mem', h1, h2, h3, _⟩ := go F hF
    exact ⟨s', css, mem', h1, h2, h3, fun h => absurd h ho⟩

/-- **C53** (constant evaluation, partial): every struct of the array is passed to the callable exactly once, in order if the loads are
ordered; except with two lanes and arrays of even length (C09). -/
theorem forEachStruct_const_visits_partial (hE : StructRange e A) (hF : F.WF c) (hce : e.constEval = true) (hpt : e.strictPtr = false)
    (zero : α) (junk : Nat → α) (wb : Bool) (f : SCallable σ α c) (s : σ) (xs : List (Vector α c))
    (h2 : e.size ≠ 2 ∨ xs.length % 2 = 1) (ha : e.pol.assumeMatchingSize = true → e.size ∣ xs.length) :
    ∃ (s' : σ) (css : List (List (List (Vector α c)))) (mem' : List α),
      forEach e F zero junk wb f.logged (s, []) (flat xs) = .ok ((s', css.map (·.map members)), mem') ∧
      forEach e F zero junk wb f s (flat xs) = .ok (s', mem') ∧
      css.flatten.flatten.Perm xs ∧ (Ordered F e → css.flatten.flatten = xs) := by
  refine visits_of (fun f => ?_) hE.size_pos hE.aligned hF zero junk f
  obtain ⟨s', log, ys, h1, h3, _⟩ := constForEach_visits_once_partial hE.size_pos hce hpt wb f s xs h2 ha
  exact ⟨s', log, ys, h1, h3⟩

/-- **C53** (constant evaluation, the excluded case): with two lanes and a non-empty array of even length the last struct is passed to the
callable twice. -/
theorem forEachStruct_const_width2 (hE : StructRange e A) (hF : F.WF c) (h2 : e.size = 2) (hce : e.constEval = true)
    (hpt : e.strictPtr = false) (zero : α) (junk : Nat → α) (f : SCallable σ α c) (s : σ) (xs : List (Vector α c)) (hn : xs.length ≠ 0)
    (hev : xs.length % 2 = 0) :
    ∃ (s' : σ) (css : List (List (List (Vector α c)))) (mem' : List α) (last : Vector α c), xs = xs.dropLast ++ [last] ∧
      forEach e F zero junk false f.logged (s, []) (flat xs) = .ok ((s', css.map (·.map members)), mem') ∧
      forEach e F zero junk false f s (flat xs) = .ok (s', mem') ∧ css.flatten.flatten = xs ++ [last] := by
  obtain ⟨last, hl⟩ : ∃ last, xs = xs.dropLast ++ [last] :=
    ⟨xs.getLast (by intro h; simp [h] at hn), (List.dropLast_concat_getLast _).symm⟩
  obtain ⟨s', css, mem', h1, h3, _, h5⟩ := visits_of (e := e) (wb := false) (s := s) (xs := xs) (vs := xs ++ [last]) (fun f => by
    obtain ⟨s', log, last', h1, h3, h4⟩ := constForEach_width2_visits_last_twice h2 hce hpt f s xs hn hev
    rw [hl] at h3
    have : last = last' := by simpa using h3
    rw [← this] at h4
    exact ⟨s', log, xs, h1, h4⟩) hE.size_pos hE.aligned hF zero junk f
  refine ⟨s', css, mem', last, hl, h1, h3, h5 fun w _ hw hu => ?_⟩
  have h8 : (F.env w).n = 8 := hu.2.2.2.2.1
  rw [hF.width] at h8
  omega

/-- **C53** (constant evaluation, partial): a callable that changes every struct with `g` turns the array `xs` into `xs.map g`, if the loads
keep the order; otherwise a permutation of that. -/
theorem forEachStruct_const_map_partial (hE : StructRange e A) (hF : F.WF c) (hce : e.constEval = true) (hpt : e.strictPtr = false)
    (zero : α) (junk : Nat → α) (f : SCallable σ α c) (g : Vector α c → Vector α c)
    (hg : ∀ s (css : List (List (Vector α c))), (f.call s (css.map members)).2 = css.map fun cs => members (cs.map g)) (s : σ)
    (xs : List (Vector α c)) (h2 : xs.length = 0 ∨ e.size ≠ 2 ∨ xs.length % 2 = 1)
    (ha : e.pol.assumeMatchingSize = true → e.size ∣ xs.length) :
    ∃ s' ys, forEach e F zero junk true f s (flat xs) = .ok (s', flat ys) ∧ ys.Perm (xs.map g) ∧ (Ordered F e → ys = xs.map g) := by
  by_cases ho : Ordered F e
  · have h := constForEach_eq_run hE.size_pos hce (by simp [hpt]) h2 ha true (onStructs (tame F e.size) zero f) s xs rfl
    have hm := run_map _ g (onStructs_ordered _ (tame_wf hF _) zero f (tame_ordered ho) g hg) _ s xs (elems_constCallsOf e xs.length)
    exact ⟨_, _, (forEach_tame hE.size_pos F zero junk true f s _).of_ok
      ((sim_struct (tame_wf hF _) hE.aligned hE.size_pos true f s xs).of_ok h), by rw [hm], fun _ => hm⟩
  · have h := constForEach_eq_run hE.size_pos hce (by simp [hpt]) h2 ha true (onStructs F zero f) s xs rfl
    exact ⟨_, _, (sim_struct hF hE.aligned hE.size_pos true f s xs).of_ok h,
      run_perm _ g (onStructs_perm F hF zero f g hg) _ _ _ (elems_constCallsOf e xs.length), fun h => absurd h ho⟩

/-! ## The theorems applied to concrete data -/

private def constPoints (w : Nat) : Env := { pointEnv with size := w, constEval := true }

private theorem constPoints_range {w : Nat} (h : 0 < w) : StructRange (constPoints w) 4 :=
  ⟨h, (by decide : 0 < 12), rfl, by decide, (by decide : 4 ∣ 12), (by decide : 4 ∣ 4), by decide, ⟨[], rfl⟩⟩

private def somePoints : List (Vector Nat 3) := [#v[1, 2, 3], #v[4, 5, 6], #v[7, 8, 9], #v[0, 1, 0]]

private theorem unchanged : ∀ s (css : List (List (Vector Nat 3))), (nop.call s (css.map members)).2 = css.map fun cs => members (cs.map id) := by
  intro s css; simp [nop]

example := forEachStruct_const_visits_partial (constPoints_range (w := 4) (by decide)) pointFamily_wf rfl rfl 0 (fun _ => 0) true nop () somePoints
  (by decide) (by decide)
example := forEachStruct_const_width2 (constPoints_range (w := 2) (by decide)) pointFamily_wf rfl rfl rfl 0 (fun _ => 0) nop () somePoints
  (by decide) (by decide)
example := forEachStruct_const_map_partial (constPoints_range (w := 8) (by decide)) pointFamily_wf rfl rfl 0 (fun _ => 0) nop id unchanged () somePoints
  (by decide) (by decide)
-- computed from the model
example : forEach (constPoints 4) pointFamily 0 (fun _ => 0) true nop () (List.range 30) = .ok ((), List.range 30) := by decide +kernel

end Vir.ForEachStruct
