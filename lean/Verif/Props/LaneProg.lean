import Verif.Lemmas.LaneMasked
import Mathlib.Logic.Function.Iterate

/-!
# C99: simd programs with elements of any type, for example floating-point numbers
-/

namespace Vir
open LaneProg Spec.OneLane

variable {α : Type} [Inhabited α] {nv nm w : Nat} {G V M : Nat → Prop}

/-- **C99.** A program without loops ends exactly if it ends in every lane, on single elements, and then with the values the lanes end with. -/
theorem lanes_noLoops (p : Stmt α) (hl : NoLoops p) (hp : Uses nv nm p) (s s' : State α) (hs : Shape nv nm w s) (n : Nat) :
    p.run w n s = .ok s' ↔ Shape nv nm w s' ∧ ∀ i, i < w → Run False i p (lane s i) (lane s' i) := by
  have hσ : ∀ i, i < w → Fits nv nm (lane s i) := fun i hi => lane_fits hs hi
  have key := run_simple (I := False) hl hp n (lane s) s' hσ
  rw [pack_lane hs] at key
  rw [key]
  constructor
  · rintro ⟨τ, rfl, hτ⟩
    exact ⟨pack_shape τ, fun i hi => by rw [lane_pack (fun i hi => run_fits (hτ i hi) (hσ i hi)) hi]; exact hτ i hi⟩
  · rintro ⟨h1, h2⟩
    exact ⟨lane s', (pack_lane h1).symm, h2⟩

/-- **C99.** Whatever any program ends with, every lane got there by going through the statements on its own values, with the only freedom
that it may have gone through a loop body because another lane needed it. -/
theorem lanes_sound (p : Stmt α) (hp : Uses nv nm p) (s s' : State α) (hs : Shape nv nm w s) (n : Nat) (h : p.run w n s = .ok s') :
    Shape nv nm w s' ∧ ∀ i, i < w → Run True i p (lane s i) (lane s' i) := by
  have hσ : ∀ i, i < w → Fits nv nm (lane s i) := fun i hi => lane_fits hs hi
  rw [← pack_lane hs] at h
  obtain ⟨τ, rfl, hτ⟩ := run_sound hp n (lane s) s' hσ h
  exact ⟨pack_shape τ, fun i hi => by rw [lane_pack (fun i hi => run_fits (hτ i hi) (hσ i hi)) hi]; exact hτ i hi⟩

/-- **C99.** If in the loops of a program everything but local variables is masked (inner loops and local variables included, see `Masked`), then
the program on single elements ends for every lane whenever the simd program ends, and apart from local variables the simds contain exactly
its results. Iterations that only other lanes need have no effect. -/
theorem lanes_masked (p : Stmt α) (hm : Masked true G V M p) (hp : Uses nv nm p) (s s' : State α) (hs : Shape nv nm w s) (n : Nat)
    (h : p.run w n s = .ok s') {i : Nat} (hi : i < w) : ∃ l, Run False i p (lane s i) l ∧ Same V M (lane s' i) l :=
  masked_run hm _ _ _ (same_refl _) ((lanes_sound p hp s s' hs n h).2 i hi)

omit [Inhabited α] in
/-- **C99.** The program on single elements has one result. -/
theorem lanes_unique (p : Stmt α) {i : Nat} {l a b : Vars α} (ha : Run False i p l a) (hb : Run False i p l b) : a = b := run_unique ha hb

/-- **C99.** Conversely, if the operands in the loops are defined for all values, as with floating-point numbers, and the program on single
elements ends for every lane, then the simd program ends, with these results in the lanes. How many iterations the lanes need, and whether
they need the same number, does not matter. -/
theorem lanes_complete (p : Stmt α) (hm : Masked true G V M p) (ht : LoopsTotal p) (hp : Uses nv nm p) (hd : ∀ j, G j → ¬ M j) (s : State α)
    (hs : Shape nv nm w s) (r : Nat → Vars α) (h : ∀ i, i < w → Run False i p (lane s i) (r i)) :
    ∃ s' N, Shape nv nm w s' ∧ (∀ i, i < w → Same V M (lane s' i) (r i)) ∧ ∀ n, N ≤ n → p.run w n s = .ok s' := by
  have hσ : ∀ i, i < w → Fits nv nm (lane s i) := fun i hi => lane_fits hs hi
  obtain ⟨σ', N, h1, h2⟩ := complete hm hp (fun h => by cases h) ht hd (lane s) r hσ fun i hi => .inl ⟨_, same_refl _, h i hi⟩
  have hf : ∀ i, i < w → Fits nv nm (σ' i) := fun i hi => (h1 i hi).symm.fits (run_fits (h i hi) (hσ i hi))
  refine ⟨pack w nv nm σ', N, pack_shape σ', fun i hi => by rw [lane_pack hf hi]; exact h1 i hi, fun n hn => ?_⟩
  have := h2 n hn
  rwa [pack_lane hs] at this

/-- **C99.** So such a simd program ends exactly if the program on single elements ends for every lane. -/
theorem lanes_ends (p : Stmt α) (hm : Masked true G V M p) (ht : LoopsTotal p) (hp : Uses nv nm p) (hd : ∀ j, G j → ¬ M j) (s : State α)
    (hs : Shape nv nm w s) : (∃ n s', p.run w n s = .ok s') ↔ ∀ i, i < w → ∃ l, Run False i p (lane s i) l := by
  constructor
  · rintro ⟨n, s', h⟩ i hi
    obtain ⟨l, hl, _⟩ := lanes_masked p hm hp s s' hs n h hi
    exact ⟨l, hl⟩
  · intro h
    have : ∀ i, ∃ l, i < w → Run False i p (lane s i) l := fun i => by
      by_cases hi : i < w
      · obtain ⟨l, hl⟩ := h i hi; exact ⟨l, fun _ => hl⟩
      · exact ⟨([], []), fun h => absurd h hi⟩
    obtain ⟨r, hr⟩ := Classical.axiomOfChoice this
    obtain ⟨s', N, _, _, hN⟩ := lanes_complete p hm ht hp hd s hs r hr
    exact ⟨N, s', hN N (Nat.le_refl _)⟩

/-! ### The Mandelbrot set, over any arithmetic -/

/-- The arithmetic of the formula `z * z + c` and of the counter: parts of `z * z`, addition, `count + 1`, `norm(z) <= 4`, `count < limit`. -/
structure Spec.PointArith (α : Type) where
  re : α → α → α
  im : α → α → α
  add : α → α → α
  next : α → α
  small : α → α → Bool
  more : α → Bool

variable (A : Spec.PointArith α)

/-- `norm(z) <= 4 && count < limit`. -/
def Spec.inside : Mk α := .and (.cmp A.small (.var 0) (.var 1)) (.cmp (fun n _ => A.more n) (.var 4) (.var 4))

/-- The body of the loop. -/
def Spec.mandelBody : Stmt α :=
  .seq (.assign 5 (.bin (fun x y => .ok (A.add x y)) (.bin (fun x y => .ok (A.re x y)) (.var 0) (.var 1)) (.var 2)))
    (.seq (.whereAssign (.mvar 0) 1 (.bin (fun x y => .ok (A.add x y)) (.bin (fun x y => .ok (A.im x y)) (.var 0) (.var 1)) (.var 3)))
      (.seq (.whereAssign (.mvar 0) 0 (.var 5))
        (.seq (.whereAssign (.mvar 0) 4 (.un (fun n => .ok (A.next n)) (.var 4)))
          (.setMask 0 (.and (.mvar 0) (Spec.inside A))))))

/-- `k = norm(z) <= 4 && count < limit; while (any_of(k)) { auto t = zr * zr - zi * zi + cr; where(k, zi) = 2 * zr * zi + ci;
where(k, zr) = t; where(k, count) = count + 1; k = k && norm(z) <= 4 && count < limit; }` with the variables `zr`, `zi`, `cr`, `ci`, `count`,
`t`. -/
def Spec.mandel : Stmt α := .seq (.setMask 0 (Spec.inside A)) (.loop (.mvar 0) (Spec.mandelBody A))

/-- One step for one point: `zr`, `zi` and `count`. -/
def Spec.mandelStep (cr ci : α) (z : α × α × α) : α × α × α := (A.add (A.re z.1 z.2.1) cr, A.add (A.im z.1 z.2.1) ci, A.next z.2.2)

/-- The point still needs an iteration. -/
def Spec.mandelGo (z : α × α × α) : Bool := A.small z.1 z.2.1 && A.more z.2.2

open Spec

omit [Inhabited α] in
theorem mandel_masked : Masked true (fun _ => False) (· = 5) (fun _ => False) (mandel A) := by
  have hin : MkAvoids (· = 5) (fun _ => False) (inside A) := by simp [inside, MkAvoids, ExAvoids]
  refine .seq (.setMask id hin (fun h => by cases h)) (.loop id (fun h => by cases h) ?_)
  refine .localVar rfl (by simp [ExAvoids]) ?_
  have h5 : ¬ Minus (· = 5) 5 5 := fun h => h.2 rfl
  have hv : ∀ k, k ≠ 5 → ¬ Minus (· = 5) 5 k := fun k hk h => hk h.1
  refine .seq (.whereAssign (hv 1 (by decide)) ⟨⟨hv 0 (by decide), hv 1 (by decide)⟩, hv 3 (by decide)⟩ id fun _ => rfl) (.seq
    (.whereAssign (hv 0 (by decide)) h5 id fun _ => rfl) (.seq (.whereAssign (hv 4 (by decide)) (hv 4 (by decide)) id fun _ => rfl)
    (.setMask id ⟨id, ⟨hv 0 (by decide), hv 1 (by decide)⟩, hv 4 (by decide), hv 4 (by decide)⟩ fun _ => ⟨rfl, .inl rfl⟩)))

omit [Inhabited α] in
theorem mandel_uses : Uses 6 1 (mandel A) := by simp [mandel, mandelBody, inside, Uses, ExUses, MkUses]

omit [Inhabited α] in
theorem mandel_total : LoopsTotal (mandel A) := by simp [mandel, mandelBody, inside, LoopsTotal, OperandsTotal, ExTotal, MkTotal]

omit [Inhabited α] in
private theorem inside_cond {i : Nat} {zr zi cr ci n t : α} {k : Bool} :
    Cond i ([zr, zi, cr, ci, n, t], [k]) (inside A) (mandelGo A (zr, zi, n)) := .and (.cmp (.var rfl) (.var rfl)) (.cmp (.var rfl) (.var rfl))

omit [Inhabited α] in
private theorem body_lane {i : Nat} {zr zi cr ci n t : α} : ∃ t', Run False i (mandelBody A) ([zr, zi, cr, ci, n, t], [true])
    ([(mandelStep A cr ci (zr, zi, n)).1, (mandelStep A cr ci (zr, zi, n)).2.1, cr, ci, (mandelStep A cr ci (zr, zi, n)).2.2, t'],
      [mandelGo A (mandelStep A cr ci (zr, zi, n))]) := by
  refine ⟨A.add (A.re zr zi) cr, .seq (.assign (.bin (.bin (.var rfl) (.var rfl) rfl) (.var rfl) rfl))
    (.seq (.where_true (.mvar rfl) (.bin (.bin (.var rfl) (.var rfl) rfl) (.var rfl) rfl))
      (.seq (.where_true (.mvar rfl) (.var rfl)) (.seq (.where_true (.mvar rfl) (.un (.var rfl) rfl)) ?_)))⟩
  have := Run.setMask (idle := False) (i := i) (j := 0) (.and (.mvar (j := 0) rfl) (inside_cond A (i := i) (zr := A.add (A.re zr zi) cr)
    (zi := A.add (A.im zr zi) ci) (cr := cr) (ci := ci) (n := A.next n) (t := A.add (A.re zr zi) cr) (k := true)))
  simpa [mandelStep] using this

omit [Inhabited α] in
private theorem loop_lane {i : Nat} {cr ci : α} (c : Nat) : ∀ (z : α × α × α) (t : α), (∀ k, k < c → mandelGo A ((mandelStep A cr ci)^[k] z) = true) →
    mandelGo A ((mandelStep A cr ci)^[c] z) = false → ∃ t', Run False i (.loop (.mvar 0) (mandelBody A))
      ([z.1, z.2.1, cr, ci, z.2.2, t], [mandelGo A z])
      ([((mandelStep A cr ci)^[c] z).1, ((mandelStep A cr ci)^[c] z).2.1, cr, ci, ((mandelStep A cr ci)^[c] z).2.2, t'], [false]) := by
  induction c with
  | zero =>
    intro z t _ h
    simp only [Function.iterate_zero, id_eq] at h
    rw [h]
    exact ⟨t, .leave (.mvar rfl)⟩
  | succ c ih =>
    intro z t h1 h2
    have h0 := h1 0 (by omega)
    simp only [Function.iterate_zero, id_eq] at h0
    obtain ⟨t1, hb⟩ := body_lane A (i := i) (zr := z.1) (zi := z.2.1) (cr := cr) (ci := ci) (n := z.2.2) (t := t)
    obtain ⟨t2, hl⟩ := ih (mandelStep A cr ci z) t1 (fun k hk => by
      have := h1 (k + 1) (by omega)
      rwa [Function.iterate_succ_apply] at this) (by rwa [Function.iterate_succ_apply] at h2)
    rw [h0, Function.iterate_succ_apply]
    exact ⟨t2, .again (.mvar rfl) (fun h => by cases h) hb hl⟩

omit [Inhabited α] in
/-- The program for a single point that needs `c` iterations. -/
theorem mandel_lane {i : Nat} {zr zi cr ci n : α} (t : α) (k : Bool) {c : Nat}
    (h1 : ∀ k, k < c → mandelGo A ((mandelStep A cr ci)^[k] (zr, zi, n)) = true) (h2 : mandelGo A ((mandelStep A cr ci)^[c] (zr, zi, n)) = false) :
    ∃ t', Run False i (mandel A) ([zr, zi, cr, ci, n, t], [k]) ([((mandelStep A cr ci)^[c] (zr, zi, n)).1,
      ((mandelStep A cr ci)^[c] (zr, zi, n)).2.1, cr, ci, ((mandelStep A cr ci)^[c] (zr, zi, n)).2.2, t'], [false]) := by
  obtain ⟨t', h⟩ := loop_lane A (i := i) c (zr, zi, n) t h1 h2
  exact ⟨t', .seq (.setMask (inside_cond A)) h⟩

/-- **C99.** The points of a simd, each of which needs its own number `c` of iterations, end with what iterating the formula for the single point
gives, whatever the arithmetic is (floating-point numbers of any format, intervals, ...). -/
theorem simd_mandelbrot (s : State α) (hs : Shape 6 1 w s) (zr zi cr ci n t : Nat → α) (k : Nat → Bool)
    (hl : ∀ i, i < w → lane s i = ([zr i, zi i, cr i, ci i, n i, t i], [k i])) (c : Nat → Nat)
    (hc : ∀ i, i < w → (∀ k, k < c i → mandelGo A ((mandelStep A (cr i) (ci i))^[k] (zr i, zi i, n i)) = true) ∧
      mandelGo A ((mandelStep A (cr i) (ci i))^[c i] (zr i, zi i, n i)) = false) :
    ∃ s' N, Shape 6 1 w s' ∧ (∀ m, N ≤ m → (mandel A).run w m s = .ok s') ∧ ∀ i, i < w →
      (lane s' i).1[0]? = some ((mandelStep A (cr i) (ci i))^[c i] (zr i, zi i, n i)).1 ∧
      (lane s' i).1[1]? = some ((mandelStep A (cr i) (ci i))^[c i] (zr i, zi i, n i)).2.1 ∧
      (lane s' i).1[4]? = some ((mandelStep A (cr i) (ci i))^[c i] (zr i, zi i, n i)).2.2 := by
  have hrun : ∀ i, ∃ l, i < w → Run False i (mandel A) (lane s i) l ∧
      l.1[0]? = some ((mandelStep A (cr i) (ci i))^[c i] (zr i, zi i, n i)).1 ∧
      l.1[1]? = some ((mandelStep A (cr i) (ci i))^[c i] (zr i, zi i, n i)).2.1 ∧
      l.1[4]? = some ((mandelStep A (cr i) (ci i))^[c i] (zr i, zi i, n i)).2.2 := fun i => by
    by_cases hi : i < w
    · obtain ⟨t', h⟩ := mandel_lane A (i := i) (t i) (k i) (hc i hi).1 (hc i hi).2
      exact ⟨_, fun _ => ⟨by rw [hl i hi]; exact h, rfl, rfl, rfl⟩⟩
    · exact ⟨([], []), fun h => absurd h hi⟩
  obtain ⟨r, hr⟩ := Classical.axiomOfChoice hrun
  obtain ⟨s', N, h1, h2, h3⟩ := lanes_complete (mandel A) (mandel_masked A) (mandel_total A) (mandel_uses A) (fun _ h => h.elim) s hs r
    fun i hi => (hr i hi).1
  refine ⟨s', N, h1, h3, fun i hi => ?_⟩
  rw [(h2 i hi).var 0 (by decide), (h2 i hi).var 1 (by decide), (h2 i hi).var 4 (by decide)]
  exact (hr i hi).2

/-- Fixed-point numbers with two decimals. -/
private def fixed : PointArith Int where
  re x y := (x * x - y * y) / 100
  im x y := 2 * x * y / 100
  add := (· + ·)
  next := (· + 1)
  small x y := decide (x * x + y * y ≤ 40000)
  more n := decide (n < 20)

/-- Three points: `0`, `1` and `-2 + i`. -/
private def points : State Int := ⟨[[0, 0, 0], [0, 0, 0], [0, 100, -200], [0, 0, 100], [0, 0, 0], [7, 7, 7]], [[false, false, false]]⟩

/-- They need different numbers of iterations. -/
example : (mandel fixed).run 3 30 points =
    .ok ⟨[[0, 500, -200], [0, 0, 100], [0, 100, -200], [0, 0, 100], [20, 3, 1], [0, 2600, 100]], [[false, false, false]]⟩ := by rfl

example := simd_mandelbrot (w := 3) fixed points ⟨rfl, by decide, rfl, by decide⟩ (fun _ => 0) (fun _ => 0) (fun i => [0, 100, -200].getD i 0)
  (fun i => [0, 0, 100].getD i 0) (fun _ => 0) (fun _ => 7) (fun _ => false) (fun i hi => by
    match i, hi with
    | 0, _ => rfl
    | 1, _ => rfl
    | 2, _ => rfl) (fun i => [20, 3, 1].getD i 0) (fun i hi => by
    match i, hi with
    | 0, _ => decide
    | 1, _ => decide
    | 2, _ => decide)

/-! ### Nested loops -/

/-- `x != 1`. -/
def Spec.notOne : Mk Int := .cmp (fun x _ => x != 1) (.var 0) (.var 0)
/-- `x % 2 == 0`. -/
def Spec.even : Mk Int := .cmp (fun x _ => x % 2 == 0) (.var 0) (.var 0)

/-- `k = x != 1; while (any_of(k)) { auto h = k && x % 2 == 0; while (any_of(h)) { where(h, x) /= 2; h = h && x % 2 == 0; }
k = k && x != 1; where(k, x) = 3 * x + 1; }`. -/
def Spec.collatz : Stmt Int :=
  .seq (.setMask 0 notOne) (.loop (.mvar 0)
    (.seq (.seq (.setMask 1 (.and (.mvar 0) even)) (.loop (.mvar 1)
        (.seq (.whereCompound (fun x y => .ok (x / y)) (.mvar 1) 0 (.gen fun _ => .ok 2)) (.setMask 1 (.and (.mvar 1) even)))))
      (.seq (.setMask 0 (.and (.mvar 0) notOne)) (.whereAssign (.mvar 0) 0 (.un (fun x => .ok (3 * x + 1)) (.var 0))))))

theorem collatz_masked : Masked true (fun _ => False) (fun _ => False) (· = 1) collatz := by
  have hM : ¬ Minus (· = 1) 1 1 := fun h => h.2 rfl
  refine .seq (.setMask (by decide) ⟨id, id⟩ (fun h => by cases h)) (.loop (by decide) (fun h => by cases h) (.seq ?_ ?_))
  · refine .localMask (G' := (· = 1)) rfl ⟨by simp [MkAvoids], id, id⟩ (fun x hx => .inr ⟨hx, .inl rfl⟩) (.loop hM (fun _ => rfl) ?_)
    exact .seq (.whereCompound id trivial hM fun _ => rfl) (.setMask hM ⟨hM, id, id⟩ fun _ => ⟨rfl, .inl rfl⟩)
  · exact .seq (.setMask (by decide) ⟨by simp [MkAvoids], id, id⟩ fun _ => ⟨rfl, .inl rfl⟩) (.whereAssign id id (by simp [MkAvoids]) fun _ => rfl)

theorem collatz_uses : Uses 1 2 collatz := by simp [collatz, notOne, even, Uses, ExUses, MkUses]

theorem collatz_total : LoopsTotal collatz := by simp [collatz, notOne, even, LoopsTotal, OperandsTotal, ExTotal, MkTotal]

/-- Five numbers with different numbers of iterations of both loops. -/
example : collatz.run 5 40 ⟨[[6, 1, 7, 3, 8]], [[true, true, false, false, true], [true, true, true, true, true]]⟩ =
    .ok ⟨[[1, 1, 1, 1, 1]], [[false, false, false, false, false], [false, false, false, false, false]]⟩ := by rfl

/-- Whether the simd program ends is a question about the single numbers. -/
example (s : State Int) (hs : Shape 1 2 w s) : (∃ n s', collatz.run w n s = .ok s') ↔ ∀ i, i < w → ∃ l, Run False i collatz (lane s i) l :=
  lanes_ends collatz collatz_masked collatz_total collatz_uses (fun _ h => h.elim) s hs

/-- Local masks are the only difference: in the second lane the mask of the inner loop was set to `false`, which the program for the single
number 1 never does. -/
example : Run False 1 collatz ([1], [true, true]) ([1], [false, true]) :=
  .seq (.setMask (.cmp (.var rfl) (.var rfl))) (.leave (.mvar rfl))

/-- Without the masks, an iteration another lane needs does change a lane that is done. -/
example : (Stmt.loop (.cmp (fun x y : Int => decide (x < y)) (.var 0) (.var 1)) (.compound (fun x y => .ok (x + y)) 0 (.gen fun _ => .ok 1))).run 2 10
    ⟨[[0, 5], [3, 5]], []⟩ = .ok ⟨[[3, 8], [3, 5]], []⟩ := by rfl

/-- A gather: `x = simd([&](auto i) { return table[x[i]]; })` is undefined if the index of one lane is outside of the table. -/
def Spec.lookup (table : List Int) : Stmt Int := .assign 0 (.un (fun j => Simd.rd table j.toNat) (.var 0))

example (table : List Int) (s s' : State Int) (hs : Shape 1 0 w s) (n : Nat) : (lookup table).run w n s = .ok s' ↔
    Shape 1 0 w s' ∧ ∀ i, i < w → Run False i (lookup table) (lane s i) (lane s' i) :=
  lanes_noLoops (lookup table) trivial (by simp [lookup, Uses, ExUses]) s s' hs n

example : (lookup [10, 20, 30]).run 3 0 ⟨[[2, 0, 2]], []⟩ = .ok ⟨[[30, 10, 30]], []⟩ ∧
    (lookup [10, 20, 30]).run 3 0 ⟨[[2, 3, 2]], []⟩ = .ub .oob := ⟨rfl, rfl⟩

end Vir
