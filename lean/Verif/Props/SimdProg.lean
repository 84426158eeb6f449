import Verif.Lemmas.SimdProg

/-!
# C95: simd programs compute in every lane what the program computes on numbers
-/

namespace Vir
open SimdProg Spec IntTy

variable {ts : List IntTy} {nm w : Nat}

/-- **C95.** Whatever the program is, with assignments, masked assignments, casts between element types and loops until no lane is
active, and whatever the width: if the program runs in every lane, as a program on numbers, then the simd program is defined and ends
with exactly these values in the lanes. Lanes do not influence each other, and lanes that are done with a loop keep their values
however many iterations the others need. -/
theorem prog_lanes (hts : VarTypes ts) (p : Stmt) (hp : Typed ts nm p) (s : State) (hs : HasShape ts nm w s) (r : Nat → Lane)
    (h : ∀ i, i < w → LaneRun p (laneOf s i) (r i)) :
    ∃ s' N, HasShape ts nm w s' ∧ (∀ i, i < w → laneOf s' i = r i) ∧ ∀ n, N ≤ n → p.run w n s = .ok s' := by
  obtain ⟨N, hN⟩ := run_lanes (w := w) hts hp (laneOf s) r (fun i hi => laneOf_typed hs hi) h
  have hr : ∀ i, i < w → LaneTyped ts nm (r i) := fun i hi => laneRun_typed hts (h i hi) hp (laneOf_typed hs hi)
  refine ⟨pack w ts.length nm r, N, pack_shape hr, fun i hi => laneOf_pack hr hi, fun n hn => ?_⟩
  have := hN n hn
  rwa [pack_laneOf hs] at this

/-- **C95.** The result of a lane is determined by its values alone. -/
theorem prog_unique (hts : VarTypes ts) (p : Stmt) (hp : Typed ts nm p) (s : State) (hs : HasShape ts nm w s) {i : Nat} (hi : i < w)
    {l l' : Lane} (h : LaneRun p (laneOf s i) l) (h' : LaneRun p (laneOf s i) l') : l = l' :=
  laneRun_unique hts h hp (laneOf_typed hs hi) l' h'

/-- **C95.** A program without loops is undefined exactly if it is undefined in some lane: if some lane does not run, the simd program is
undefined; by `prog_lanes` it is defined otherwise. -/
theorem prog_undefined (hts : VarTypes ts) (p : Stmt) (hp : Typed ts nm p) (hl : LoopFree p) (s : State) (hs : HasShape ts nm w s)
    (h : ∃ i, i < w ∧ ∀ l, ¬ LaneRun p (laneOf s i) l) (n : Nat) : ∃ u, p.run w n s = .ub u := by
  have := run_ub hts hp hl (laneOf s) (fun i hi => laneOf_typed hs hi) h n
  rwa [pack_laneOf hs] at this

/-- **C95.** Conversely, whatever a simd program ends with, every lane got there by going through the statements on its own values, with the
only freedom that it may have gone through a loop body because another lane needed it. -/
theorem prog_sound (hts : VarTypes ts) (p : Stmt) (hp : Typed ts nm p) (s s' : State) (hs : HasShape ts nm w s) (n : Nat)
    (h : p.run w n s = .ok s') : HasShape ts nm w s' ∧ ∀ i, i < w → LaneSteps True p (laneOf s i) (laneOf s' i) := by
  rw [← pack_laneOf hs] at h
  obtain ⟨τ, rfl, hτ⟩ := run_sound hts hp n (laneOf s) s' (fun i hi => laneOf_typed hs hi) h
  have ht : ∀ i, i < w → LaneTyped ts nm (τ i) := fun i hi => laneSteps_typed hts (hτ i hi) hp (laneOf_typed hs hi)
  exact ⟨pack_shape ht, fun i hi => by rw [laneOf_pack ht hi]; exact hτ i hi⟩

/-- **C95.** A loop body that masks everything with the mask of the loop changes nothing in a lane that is not active: such a lane meets
the condition of `prog_lanes` for lanes that are done, if the operands of the body are defined there. -/
theorem masked_body (j : Nat) (body : Stmt) (hb : MaskedBy j body) {l l' : Lane} (hj : l.2[j]? = some false)
    (h : LaneRun body l l') : l' = l := by
  have hmk : ∀ {l : Lane} {b : Bool}, l.2[j]? = some false → MkValue l (.mvar j) b → b = false := by
    intro l b h1 h2
    cases h2 with | mvar h => rw [h1] at h; exact (Option.some.inj h).symm
  induction h with
  | skip => rfl
  | seq _ _ iha ihb =>
    have := iha hb.1 hj
    subst this
    exact ihb hb.2 hj
  | assign => exact hb.elim
  | compound => exact hb.elim
  | step => exact hb.elim
  | where_true hm _ => rw [show _ = Mk.mvar j from hb] at hm; exact absurd (hmk hj hm) (by decide)
  | where_false => rfl
  | whereCompound_true hm => rw [show _ = Mk.mvar j from hb] at hm; exact absurd (hmk hj hm) (by decide)
  | whereCompound_false => rfl
  | whereStep_true hm => rw [show _ = Mk.mvar j from hb] at hm; exact absurd (hmk hj hm) (by decide)
  | whereStep_false => rfl
  | @setMask j' m b l hm =>
    obtain ⟨rfl, m', rfl⟩ := hb
    cases hm with
    | and g1 g2 =>
      have := hmk hj g1
      subst this
      obtain ⟨h1, h2⟩ := List.getElem?_eq_some_iff.1 hj
      rw [Bool.false_and, ← h2, List.set_getElem_self]
  | loop_more => exact hb.elim
  | loop_done => exact hb.elim

private theorem maskedBy_loopFree {j : Nat} : ∀ {p : Stmt}, MaskedBy j p → LoopFree p
  | .skip, _ => trivial
  | .seq _ _, h => ⟨maskedBy_loopFree h.1, maskedBy_loopFree h.2⟩
  | .assign _ _, h => h.elim
  | .compound _ _ _ _, h => h.elim
  | .step _ _ _, h => h.elim
  | .whereAssign _ _ _, _ => trivial
  | .whereCompound _ _ _ _ _, _ => trivial
  | .whereStep _ _ _ _, _ => trivial
  | .setMask _ _, _ => trivial
  | .loop _ _, h => h.elim

private theorem loopFree_run {I : Prop} {p : Stmt} {l l' : Lane} (h : LaneSteps I p l l') : LoopFree p → LaneRun p l l' := by
  induction h with
  | simple _ h => exact fun _ => h
  | seq _ _ iha ihb => exact fun hl => .seq (iha hl.1) (ihb hl.2)
  | again => exact fun hl => hl.elim
  | leave => exact fun hl => hl.elim

/-- **C95.** If all loops are of the form `while (any_of(k)) body` with everything in `body` masked by `k`, then whatever the simd program ends
with is in every lane what the program on numbers ends with: an iteration only another lane needs is no iteration of this lane. -/
theorem prog_sound_masked (hts : VarTypes ts) (p : Stmt) (hp : Typed ts nm p) (hm : MaskedLoops p) (s s' : State) (hs : HasShape ts nm w s)
    (n : Nat) (h : p.run w n s = .ok s') {i : Nat} (hi : i < w) : LaneSteps False p (laneOf s i) (laneOf s' i) := by
  have hstep := (prog_sound hts p hp s s' hs n h).2 i hi
  clear h
  generalize laneOf s i = l at hstep
  generalize laneOf s' i = l' at hstep
  clear hp
  induction hstep with
  | simple hl h => exact .simple hl h
  | seq _ _ iha ihb => exact .seq (iha hm.1) (ihb hm.2)
  | @again m body c l l' l'' hc _ hb _ _ ihb =>
    obtain ⟨j, rfl, hj⟩ := hm
    have hrun := loopFree_run hb (maskedBy_loopFree hj)
    cases c with
    | true => exact .again hc (fun h => by cases h) (.simple (maskedBy_loopFree hj) hrun) (ihb ⟨j, rfl, hj⟩)
    | false =>
      cases hc with
      | mvar hc =>
        have := masked_body j body hj hc hrun
        subst this
        exact ihb ⟨j, rfl, hj⟩
  | leave h => exact .leave h

/-! ### Euclid's algorithm on simds -/

/-- `k = b != 0; while (any_of(k)) { where(k, t) = a; where(k, t) %= b; where(k, a) = b; where(k, b) = t; k = k && b != 0; }` with the
variables `a`, `b`, `t` of type `t`. -/
def Spec.euclidBody (t : IntTy) : Stmt :=
  .seq (.whereAssign (.mvar 0) 2 (.var 0)) (.seq (.whereCompound t .mod (.mvar 0) 2 (.var 1)) (.seq (.whereAssign (.mvar 0) 0 (.var 1))
    (.seq (.whereAssign (.mvar 0) 1 (.var 2)) (.setMask 0 (.and (.mvar 0) (.cmp .ne t (.var 1) (.lit t 0)))))))

@[inherit_doc Spec.euclidBody] def Spec.euclid (t : IntTy) : Stmt :=
  .seq (.setMask 0 (.cmp .ne t (.var 1) (.lit t 0))) (.loop (.mvar 0) (Spec.euclidBody t))

private theorem lit_zero {t : IntTy} (h0 : t.Has 0) {xs : List Int} : ExValue xs (.lit t 0) 0 := .lit ⟨h0, by simp⟩

private theorem ne_value {t : IntTy} (h0 : t.Has 0) {xs : List Int} {ks : List Bool} {b : Nat} (hb : xs[1]? = some (b : Int)) :
    MkValue (xs, ks) (.cmp .ne t (.var 1) (.lit t 0)) (decide (b ≠ 0)) := by
  by_cases h : b = 0
  · subst h
    exact .cmp_false (.var hb) (lit_zero h0) (by simp [cmpHolds])
  · rw [decide_eq_true h]
    exact .cmp_true (.var hb) (lit_zero h0) (by simp only [cmpHolds]; omega)

private theorem euclid_done {t : IntTy} (h0 : t.Has 0) (a : Nat) (c : Int) :
    LaneRun (euclidBody t) ([(a : Int), 0, c], [false]) ([(a : Int), 0, c], [false]) := by
  refine .seq (.where_false (v := a) (.mvar rfl) (.var rfl)) (.seq (.whereCompound_false (y := 0) (.mvar rfl) (.var rfl))
    (.seq (.where_false (v := 0) (.mvar rfl) (.var rfl)) (.seq (.where_false (v := c) (.mvar rfl) (.var rfl)) ?_)))
  exact .setMask (l := ([(a : Int), 0, c], [false])) (b := false) (.and (x := false) (.mvar rfl) (ne_value (b := 0) h0 rfl))

private theorem euclid_step {t : IntTy} (h0 : t.Has 0) (a b : Nat) (c : Int) (hb : b ≠ 0) :
    LaneRun (euclidBody t) ([(a : Int), b, c], [true]) ([(b : Int), ((a % b : Nat) : Int), ((a % b : Nat) : Int)], [decide (a % b ≠ 0)]) := by
  refine .seq (.where_true (v := a) (.mvar rfl) (.var rfl)) (.seq (.whereCompound_true (x := a) (y := b) (v := ((a % b : Nat) : Int))
    (.mvar rfl) (.var rfl) rfl ?_ ?_) (.seq (.where_true (v := b) (.mvar rfl) (.var rfl))
    (.seq (.where_true (v := ((a % b : Nat) : Int)) (.mvar rfl) (.var rfl)) ?_)))
  · simp only [IsUndefined]; omega
  · simp only [IsResult]; exact (Int.natCast_emod a b).trans (Int.tmod_eq_emod_of_nonneg (by omega)).symm
  · have := LaneRun.setMask (j := 0) (l := ([(b : Int), ((a % b : Nat) : Int), ((a % b : Nat) : Int)], [true]))
      (MkValue.and (b := .cmp .ne t (.var 1) (.lit t 0)) (x := true) (.mvar (j := 0) rfl) (ne_value (b := a % b) h0 rfl))
    exact this

private theorem euclid_loop {t : IntTy} (h0 : t.Has 0) (b : Nat) : ∀ (a : Nat) (c : Int), ∃ c',
    LaneRun (.loop (.mvar 0) (euclidBody t)) ([(a : Int), b, c], [decide (b ≠ 0)]) ([(Nat.gcd a b : Int), 0, c'], [false]) := by
  induction b using Nat.strongRecOn with
  | _ b ih =>
    intro a c
    by_cases hb : b = 0
    · subst hb
      refine ⟨c, ?_⟩
      rw [Nat.gcd_zero_right]
      exact .loop_done (.mvar rfl) (euclid_done h0 a c)
    · obtain ⟨c', hc⟩ := ih (a % b) (Nat.mod_lt _ (by omega)) b ((a % b : Nat) : Int)
      refine ⟨c', ?_⟩
      rw [Nat.gcd_comm, Nat.gcd_rec, Nat.gcd_comm]
      rw [decide_eq_true hb]
      exact .loop_more (.mvar rfl) (euclid_step h0 a b c hb) hc

theorem euclid_lane {t : IntTy} (h0 : t.Has 0) (a b : Nat) (c : Int) (k : Bool) : ∃ c',
    LaneRun (euclid t) ([(a : Int), b, c], [k]) ([(Nat.gcd a b : Int), 0, c'], [false]) := by
  obtain ⟨c', h⟩ := euclid_loop h0 b a c
  exact ⟨c', .seq (.setMask (ne_value h0 (b := b) rfl)) h⟩

/-- **C95 (a whole algorithm).** Euclid's algorithm with masked assignments computes in every lane the greatest common divisor of the
lane's values, for every width, every integer type and all nonnegative values, whatever the numbers of iterations of the lanes are. -/
theorem simd_gcd (t : IntTy) (ht : ValidTy t) (hb : 1 < t.bits) (a b c : List Int) (k : List Bool) (ha : a.length = w) (hbl : b.length = w)
    (hc : c.length = w) (hk : k.length = w) (hA : LanesOf t a) (hB : LanesOf t b) (hC : LanesOf t c)
    (h0 : ∀ x, x ∈ a ∨ x ∈ b → 0 ≤ x) :
    ∃ (d e f : List Int) (k' : List Bool) (N : Nat), (∀ n, N ≤ n → (euclid t).run w n ⟨[a, b, c], [k]⟩ = .ok ⟨[d, e, f], [k']⟩) ∧ d.length = w ∧
      ∀ (i : Nat) (x y : Int), a[i]? = some x → b[i]? = some y → d[i]? = some (Nat.gcd x.toNat y.toNat : Int) := by
  have hts : VarTypes [t, t, t] := by
    intro t' h
    have : t' = t := by simpa using h
    subst this
    exact ⟨ht, hb⟩
  have hz : t.Has 0 := by
    have := Int.pow_pos (n := 2) (m := t.bits - 1) (by decide)
    have := Int.pow_pos (n := 2) (m := t.bits) (by decide)
    unfold IntTy.Has IntTy.lowest IntTy.max
    split <;> constructor <;> omega
  have hp : Typed [t, t, t] 1 (euclid t) := by
    simp [euclid, euclidBody, Typed, MkTyped, ExTyped, ht]
  have hs : HasShape [t, t, t] 1 w ⟨[a, b, c], [k]⟩ := by
    refine ⟨rfl, fun j t' x hj hx => ?_, rfl, fun b hb => ?_⟩
    · match j, hj, hx with
      | 0, hj, hx => cases hj; cases hx; exact ⟨ha, hA⟩
      | 1, hj, hx => cases hj; cases hx; exact ⟨hbl, hB⟩
      | 2, hj, hx => cases hj; cases hx; exact ⟨hc, hC⟩
      | j + 3, hj, hx => cases hj
    · have : b = k := by simpa using hb
      rw [this]; exact hk
  obtain ⟨r, hr⟩ := choose_below (w := w) (P := fun i (l : Lane) => LaneRun (euclid t) (laneOf ⟨[a, b, c], [k]⟩ i) l ∧
      ∃ (e f : Int) (k' : List Bool), ∀ (x y : Int), a[i]? = some x → b[i]? = some y → l = ([(Nat.gcd x.toNat y.toNat : Int), e, f], k')) fun i hi => by
    have e1 : a[i]? = some (a[i]'(by omega)) := List.getElem?_eq_getElem _
    have e2 : b[i]? = some (b[i]'(by omega)) := List.getElem?_eq_getElem _
    have e3 : c[i]? = some (c[i]'(by omega)) := List.getElem?_eq_getElem _
    have e4 : k[i]? = some (k[i]'(by omega)) := List.getElem?_eq_getElem _
    have n1 := h0 _ (.inl (List.mem_of_getElem? e1))
    have n2 := h0 _ (.inr (List.mem_of_getElem? e2))
    obtain ⟨x, hx⟩ := Int.eq_ofNat_of_zero_le n1
    obtain ⟨y, hy⟩ := Int.eq_ofNat_of_zero_le n2
    rw [hx] at e1
    rw [hy] at e2
    obtain ⟨c', hc'⟩ := euclid_loop hz y x (c[i]'(by omega))
    refine ⟨([(Nat.gcd x y : Int), 0, c'], [false]), ?_, 0, c', [false], fun x' y' hx' hy' => ?_⟩
    · unfold laneOf
      simp only [List.filterMap_cons, e1, e2, e3, e4, List.filterMap_nil]
      refine .seq (.setMask (ne_value hz (b := y) rfl)) ?_
      exact hc'
    · rw [e1] at hx'
      rw [e2] at hy'
      cases hx'; cases hy'
      rfl
  obtain ⟨s', N, hs', hl, hrun⟩ := prog_lanes hts (euclid t) hp _ hs r fun i hi => (hr i hi).1
  obtain ⟨vars, masks⟩ := s'
  match vars, masks, hs'.vars, hs'.masks with
  | [d, e, f], [k'], _, _ =>
    have hd := (hs'.var 0 t d rfl rfl).1
    have he := (hs'.var 1 t e rfl rfl).1
    have hf := (hs'.var 2 t f rfl rfl).1
    refine ⟨d, e, f, k', N, hrun, hd, fun i x y hx hy => ?_⟩
    have hi : i < w := by have := (List.getElem?_eq_some_iff.1 hx).1; omega
    obtain ⟨e', f', k'', hlane⟩ := (hr i hi).2
    have h1 := hl i hi
    rw [hlane x y hx hy] at h1
    have e1 : d[i]? = some (d[i]'(by omega)) := List.getElem?_eq_getElem _
    unfold laneOf at h1
    simp only [List.filterMap_cons, e1] at h1
    have h2 := congrArg (fun l : Lane => l.1[0]?) h1
    simp only [List.getElem?_cons_zero] at h2
    rw [e1]; exact h2

/-! ### the theorems are about something -/

-- the lanes need 0, 3 and 2 iterations
example : ∃ N, ∀ n, N ≤ n → ∃ d e f k, (euclid i32).run 3 n ⟨[[7, 12, 9], [0, 18, 6], [0, 0, 0]], [[true, false, true]]⟩ = .ok ⟨[d, e, f], [k]⟩ ∧
    d = [7, 6, 3] := by
  obtain ⟨d, e, f, k', N, h1, h2, h3⟩ := simd_gcd (w := 3) i32 (by unfold ValidTy; decide) (by decide) [7, 12, 9] [0, 18, 6] [0, 0, 0]
    [true, false, true] rfl rfl rfl rfl (by unfold LanesOf; decide) (by unfold LanesOf; decide) (by unfold LanesOf; decide) (fun x h => by simp at h; omega)
  refine ⟨N, fun n hn => ⟨d, e, f, k', h1 n hn, ?_⟩⟩
  match d, h2 with
  | [p, q, r], _ =>
    have g0 := h3 0 7 0 rfl rfl
    have g1 := h3 1 12 18 rfl rfl
    have g2 := h3 2 9 6 rfl rfl
    simp at g0 g1 g2
    rw [g0, g1, g2]
example : (euclid i32).run 3 10 ⟨[[7, 12, 9], [0, 18, 6], [0, 0, 0]], [[true, false, true]]⟩ =
    .ok ⟨[[7, 6, 3], [0, 0, 0], [0, 0, 0]], [[false, false, false]]⟩ := by decide +kernel
example := masked_body 0 (euclidBody i32) (by simp [euclidBody, MaskedBy]) (l := ([7, 0, 1], [false])) rfl (euclid_done (by decide) 7 1)

-- whatever number of tests suffices, the simd program ends with what the lanes end with
example {s' : State} {n : Nat} (h : (euclid i32).run 3 n ⟨[[7, 12, 9], [0, 18, 6], [0, 0, 0]], [[true, false, true]]⟩ = .ok s') :
    LaneSteps False (euclid i32) ([12, 18, 0], [false]) (laneOf s' 1) :=
  prog_sound_masked (w := 3) (nm := 1) (ts := [i32, i32, i32]) (fun t ht => by
      have : t = i32 := by simpa using ht
      subst this
      unfold ValidTy; decide) (euclid i32)
    (by simp [euclid, euclidBody, Typed, MkTyped, ExTyped]; unfold ValidTy; decide)
    ⟨trivial, 0, rfl, by simp [euclidBody, MaskedBy]⟩ _ s'
    ⟨rfl, (fun k t x hk hx => by
      match k, hk, hx with
      | 0, hk, hx => cases hk; cases hx; exact ⟨rfl, by unfold LanesOf; decide⟩
      | 1, hk, hx => cases hk; cases hx; exact ⟨rfl, by unfold LanesOf; decide⟩
      | 2, hk, hx => cases hk; cases hx; exact ⟨rfl, by unfold LanesOf; decide⟩
      | k + 3, hk, _ => cases hk), rfl, by simp⟩ n h (i := 1) (by decide)

/-- Without a mask the lanes that are done change while others are not: `while (any_of(x < y)) ++x;`. -/
example : (Stmt.loop (.cmp .lt i32 (.var 0) (.var 1)) (.step i32 true 0)).run 2 10 ⟨[[0, 5], [3, 5]], []⟩ = .ok ⟨[[3, 8], [3, 5]], []⟩ := by
  decide +kernel

-- `x += x; y = static_simd_cast<int>(x)` with `x` of type `unsigned char`; two lanes
example : ∃ s' N, ∀ n, N ≤ n →
    (Stmt.seq (.compound ⟨8, false⟩ .add 0 (.var 0)) (.assign 1 (.cast ⟨8, false⟩ i32 (.var 0)))).run 2 n ⟨[[1, 200], [0, 0]], []⟩ = .ok s' ∧
      laneOf s' 1 = ([144, 144], []) := by
  have hts : VarTypes [⟨8, false⟩, i32] := by
    intro t ht
    simp only [List.mem_cons, List.not_mem_nil, or_false] at ht
    rcases ht with rfl | rfl <;> (unfold ValidTy; decide)
  have hrun : ∀ x y z : Int, IsWrapped ⟨8, false⟩ (x + x) y → IsWrapped i32 y y →
      LaneRun (Stmt.seq (.compound ⟨8, false⟩ .add 0 (.var 0)) (.assign 1 (.cast ⟨8, false⟩ i32 (.var 0)))) ([x, z], []) ([y, y], []) :=
    fun x y z h1 h2 => .seq (.compound (.var rfl) rfl (by simp [IsUndefined]) h1) (.assign (.cast (.var rfl) h2))
  obtain ⟨s', N, _, h2, h3⟩ := prog_lanes (w := 2) (nm := 0) hts (.seq (.compound ⟨8, false⟩ .add 0 (.var 0)) (.assign 1 (.cast ⟨8, false⟩ i32 (.var 0))))
    (by simp [Typed, ExTyped]; unfold ValidTy; decide) ⟨[[1, 200], [0, 0]], []⟩
    ⟨rfl, (fun k t x hk hx => by
      match k, hk, hx with
      | 0, hk, hx => cases hk; cases hx; exact ⟨rfl, by unfold LanesOf; decide⟩
      | 1, hk, hx => cases hk; cases hx; exact ⟨rfl, by unfold LanesOf; decide⟩
      | k + 2, hk, _ => cases hk), rfl, by simp⟩
    (fun i => if i = 0 then ([2, 2], []) else ([144, 144], [])) (fun i hi => by
      match i, hi with
      | 0, _ => exact hrun 1 2 0 (by unfold IsWrapped; decide) (by unfold IsWrapped; decide)
      | 1, _ => exact hrun 200 144 0 (by unfold IsWrapped; decide) (by unfold IsWrapped; decide))
  exact ⟨s', N, fun n hn => ⟨h3 n hn, h2 1 (by decide)⟩⟩

-- `++x` with the largest `int` in lane 1 is undefined
example := prog_undefined (w := 2) (nm := 0) (ts := [i32]) (fun t ht => by
    simp only [List.mem_cons, List.not_mem_nil, or_false] at ht
    subst ht
    unfold ValidTy; decide)
  (.step i32 true 0) rfl trivial ⟨[[1, 2147483647]], []⟩
  ⟨rfl, (fun k t x hk hx => by
    match k, hk, hx with
    | 0, hk, hx => cases hk; cases hx; exact ⟨rfl, by unfold LanesOf; decide⟩
    | k + 1, hk, _ => cases hk), rfl, by simp⟩
  ⟨1, by decide, fun l h => by
    cases h with
    | step h1 h2 _ =>
      have := Option.some.inj h1
      subst this
      exact h2 (by show _ ∧ _ ∧ ¬ _; decide)⟩ 0

end Vir
