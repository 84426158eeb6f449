import Verif.Lemmas.SimdReduce
import Verif.Spec.Reduce

/-!
# C37, C38, C39, C44: horizontal reductions, masked reductions, `min`/`max`/`clamp`
-/

namespace Vir.Simd
open Spec

variable {α : Type}

/-! ### `reduce(v, op)` -/

/-- **C37.** `reduce(v, op)` is a generalized sum of the lanes: every lane is used exactly once. `op` may be any
operation that acts lane by lane on simd arguments. The width of a `simd` is an `int`. -/
theorem reduceV_is_gsum {vop : List α → List α → Outcome (List α)} {op : α → α → α}
    (hv : ∀ l r, l.length = r.length → vop l r = .ok (List.zipWith op l r)) (v : List α) (h0 : v ≠ [])
    (hw : v.length < 2 ^ 31) : ∃ x, reduceV vop op v = .ok x ∧ GSum op v x :=
  reduceV_gsum hv v h0 (by omega)

/-- **C37.** For an associative and commutative operation `reduce(v, op)` is the left fold. -/
theorem reduceV_eq_fold {vop : List α → List α → Outcome (List α)} {op : α → α → α}
    (hv : ∀ l r, l.length = r.length → vop l r = .ok (List.zipWith op l r))
    (hassoc : ∀ a b c, op (op a b) c = op a (op b c)) (hcomm : ∀ a b, op a b = op b a)
    (x : α) (xs : List α) (hw : (x :: xs).length < 2 ^ 31) : reduceV vop op (x :: xs) = .ok (xs.foldl op x) := by
  obtain ⟨y, h1, h2⟩ := reduceV_is_gsum hv (x :: xs) (by simp) hw
  rw [h1, h2.eq_foldl hassoc hcomm]

/-- **C37.** The fallback `reduce` is a horizontal reduction in the sense assumed by the theorems about
`transform_reduce` and `reduce` with an execution policy. -/
theorem reduceV_meets_HReduce [Inhabited α] {vop : List α → List α → Outcome (List α)} {op : α → α → α}
    (hv : ∀ l r, l.length = r.length → vop l r = .ok (List.zipWith op l r)) :
    ∃ hred : List α → α, HReduce op hred ∧
      ∀ v, v ≠ [] → v.length < 2 ^ 31 → reduceV vop op v = .ok (hred v) := by
  refine ⟨fun v => if v.length < 2 ^ 31 then (match reduceV vop op v with | .ok x => x | _ => default)
      else (v.tail.foldl op (v.headD default)), fun v h0 => ?_, fun v h0 hw => ?_⟩
  · by_cases hw : v.length < 2 ^ 31
    · obtain ⟨x, h1, h2⟩ := reduceV_is_gsum hv v h0 hw
      simp only [hw, if_true, h1]; exact h2
    · simp only [hw, if_false]
      cases v with
      | nil => exact absurd rfl h0
      | cons x xs => exact foldl_gsum op x xs
  · obtain ⟨x, h1, _⟩ := reduceV_is_gsum hv v h0 hw
    simp only [hw, if_true, h1]

private theorem irrefl {lt : α → α → Bool} (h : StrictWeak lt) (a : α) : lt a a = false := by
  cases ha : lt a a with
  | false => rfl
  | true => rw [h.asymm a a ha] at ha; exact absurd ha (by decide)

private theorem gsum_least {lt : α → α → Bool} (h : StrictWeak lt) {xs : List α} {x : α} (hx : GSum (stdMin lt) xs x) :
    IsLeast lt xs x := by
  induction hx with
  | single x => exact ⟨by simp, by simpa using irrefl h x⟩
  | @node xs ys a b _ _ ih1 ih2 =>
    unfold stdMin
    by_cases hl : lt b a = true
    · rw [if_pos hl]
      refine ⟨by simp [ih2.1], fun y hy => ?_⟩
      rcases List.mem_append.1 hy with hy | hy
      · exact h.negTrans y a b (ih1.2 y hy) (h.asymm b a hl)
      · exact ih2.2 y hy
    · rw [if_neg hl]
      refine ⟨by simp [ih1.1], fun y hy => ?_⟩
      rcases List.mem_append.1 hy with hy | hy
      · exact ih1.2 y hy
      · exact h.negTrans y b a (ih2.2 y hy) (by simpa using hl)
  | perm hp _ ih => exact ⟨hp.mem_iff.1 ih.1, fun y hy => ih.2 y (hp.mem_iff.2 hy)⟩

private theorem gsum_greatest {lt : α → α → Bool} (h : StrictWeak lt) {xs : List α} {x : α}
    (hx : GSum (stdMax lt) xs x) : IsGreatest lt xs x := by
  induction hx with
  | single x => exact ⟨by simp, by simpa using irrefl h x⟩
  | @node xs ys a b _ _ ih1 ih2 =>
    unfold stdMax
    by_cases hl : lt a b = true
    · rw [if_pos hl]
      refine ⟨by simp [ih2.1], fun y hy => ?_⟩
      rcases List.mem_append.1 hy with hy | hy
      · exact h.negTrans b a y (h.asymm a b hl) (ih1.2 y hy)
      · exact ih2.2 y hy
    · rw [if_neg hl]
      refine ⟨by simp [ih1.1], fun y hy => ?_⟩
      rcases List.mem_append.1 hy with hy | hy
      · exact ih1.2 y hy
      · exact h.negTrans a b y (by simpa using hl) (ih2.2 y hy)
  | perm hp _ ih => exact ⟨hp.mem_iff.1 ih.1, fun y hy => ih.2 y (hp.mem_iff.2 hy)⟩

/-- **C37.** `hmin(v)` is the least lane. -/
theorem hmin_spec {lt : α → α → Bool} (h : StrictWeak lt) (v : List α) (h0 : v ≠ []) (hw : v.length < 2 ^ 31) :
    ∃ x, hmin lt v = .ok x ∧ IsLeast lt v x := by
  obtain ⟨x, h1, h2⟩ := reduceV_is_gsum (minV_eq lt) v h0 hw
  exact ⟨x, h1, gsum_least h h2⟩

/-- **C37.** `hmax(v)` is the greatest lane. -/
theorem hmax_spec {lt : α → α → Bool} (h : StrictWeak lt) (v : List α) (h0 : v ≠ []) (hw : v.length < 2 ^ 31) :
    ∃ x, hmax lt v = .ok x ∧ IsGreatest lt v x := by
  obtain ⟨x, h1, h2⟩ := reduceV_is_gsum (maxV_eq lt) v h0 hw
  exact ⟨x, h1, gsum_greatest h h2⟩

/-! ### masked reductions -/

/-- **C38.** `reduce(where(k, v), identity, op)` folds `op` over `identity` and the selected lanes in order. -/
theorem reduceMasked_spec (k : List Bool) (v : List α) (h : k.length = v.length) (identity : α) (op : α → α → α) :
    reduceMasked k v identity op = .ok ((selected k v).foldl op identity) := reduceMasked_eq k v h identity op

/-- **C38.** With an all-true mask and a neutral identity the masked reduction agrees with `reduce(v, op)`, for an
associative and commutative operation. -/
theorem reduceMasked_all {vop : List α → List α → Outcome (List α)} {op : α → α → α}
    (hv : ∀ l r, l.length = r.length → vop l r = .ok (List.zipWith op l r))
    (hassoc : ∀ a b c, op (op a b) c = op a (op b c)) (hcomm : ∀ a b, op a b = op b a) (identity : α)
    (hid : ∀ a, op identity a = a) (v : List α) (h0 : v ≠ []) (hw : v.length < 2 ^ 31) :
    reduceMasked (List.replicate v.length true) v identity op = reduceV vop op v := by
  have hsel : ∀ v : List α, selected (List.replicate v.length true) v = v := by
    intro v
    induction v with
    | nil => rfl
    | cons x xs ih =>
      simp only [selected] at ih ⊢
      simp [List.replicate_succ, ih]
  rw [reduceMasked_eq _ _ (by simp), hsel]
  cases v with
  | nil => exact absurd rfl h0
  | cons x xs => rw [reduceV_eq_fold hv hassoc hcomm x xs hw, List.foldl_cons, hid]

/-- **C39.** `hmin(where(k, v))` is the least of the identity element and the selected lanes. -/
theorem hminMasked_spec {lt : α → α → Bool} (h : StrictWeak lt) (idElem : α) (k : List Bool) (v : List α)
    (hl : k.length = v.length) :
    ∃ x, hminMasked lt idElem k v = .ok x ∧ IsLeast lt (idElem :: selected k v) x :=
  ⟨_, reduceMasked_eq k v hl _ _, gsum_least h (foldl_gsum _ _ _)⟩

/-- **C39.** `hmax(where(k, v))` is the greatest of the identity element and the selected lanes. -/
theorem hmaxMasked_spec {lt : α → α → Bool} (h : StrictWeak lt) (idElem : α) (k : List Bool) (v : List α)
    (hl : k.length = v.length) :
    ∃ x, hmaxMasked lt idElem k v = .ok x ∧ IsGreatest lt (idElem :: selected k v) x :=
  ⟨_, reduceMasked_eq k v hl _ _, gsum_greatest h (foldl_gsum _ _ _)⟩

/-- **C39 (part).** `hmin(where(k, v))` is the least selected lane if one lane is selected, provided the values are
totally ordered and the identity element (`numeric_limits<T>::max()`) is not less than any lane. Missing: floating-point
lanes with the value infinity, for which the claim is false (`hminMasked_not_least`). -/
theorem hminMasked_least_partial {lt : α → α → Bool} (h : StrictWeak lt)
    (hext : ∀ a b, lt a b = false → lt b a = false → a = b) (idElem : α) (k : List Bool) (v : List α)
    (hl : k.length = v.length) (hid : ∀ y ∈ v, lt idElem y = false) (hs : selected k v ≠ []) :
    ∃ x, hminMasked lt idElem k v = .ok x ∧ IsLeast lt (selected k v) x := by
  obtain ⟨x, h1, h2, h3⟩ := hminMasked_spec h idElem k v hl
  refine ⟨x, h1, ?_, fun y hy => h3 y (by simp [hy])⟩
  rcases List.mem_cons.1 h2 with rfl | h2
  · obtain ⟨y, hy⟩ := List.exists_mem_of_ne_nil _ hs
    have hyv : y ∈ v := by
      unfold selected at hy
      obtain ⟨⟨b, z⟩, hz, hb⟩ := List.mem_filterMap.1 hy
      cases b with
      | false => simp at hb
      | true => simp at hb; exact hb ▸ (List.of_mem_zip hz).2
    rw [hext x y (hid y hyv) (h3 y (by simp [hy]))]
    exact hy
  · exact h2

/-- **C39 (part).** `hmax(where(k, v))` is the greatest selected lane, under the corresponding conditions on
`numeric_limits<T>::lowest()`. -/
theorem hmaxMasked_greatest_partial {lt : α → α → Bool} (h : StrictWeak lt)
    (hext : ∀ a b, lt a b = false → lt b a = false → a = b) (idElem : α) (k : List Bool) (v : List α)
    (hl : k.length = v.length) (hid : ∀ y ∈ v, lt y idElem = false) (hs : selected k v ≠ []) :
    ∃ x, hmaxMasked lt idElem k v = .ok x ∧ IsGreatest lt (selected k v) x := by
  obtain ⟨x, h1, h2, h3⟩ := hmaxMasked_spec h idElem k v hl
  refine ⟨x, h1, ?_, fun y hy => h3 y (by simp [hy])⟩
  rcases List.mem_cons.1 h2 with rfl | h2
  · obtain ⟨y, hy⟩ := List.exists_mem_of_ne_nil _ hs
    have hyv : y ∈ v := by
      unfold selected at hy
      obtain ⟨⟨b, z⟩, hz, hb⟩ := List.mem_filterMap.1 hy
      cases b with
      | false => simp at hb
      | true => simp at hb; exact hb ▸ (List.of_mem_zip hz).2
    rw [hext x y (h3 y (by simp [hy])) (hid y hyv)]
    exact hy
  · exact h2

/-- **C39.** False for `float`: with `FLT_MAX` as identity element the minimum of the selected lane `+inf` is reported as
`FLT_MAX`, and the maximum of `-inf` as `-FLT_MAX`. -/
theorem hminMasked_not_least :
    hminMasked f32lt 0x7f7fffff#32 [true, false] [0x7f800000#32, 0#32] = .ok 0x7f7fffff#32 ∧
      selected [true, false] [0x7f800000#32, 0#32] = [0x7f800000#32] ∧
      hmaxMasked f32lt 0xff7fffff#32 [true, false] [0xff800000#32, 0#32] = .ok 0xff7fffff#32 := by
  decide +kernel

/-! ### `min`, `max`, `minmax`, `clamp` -/

/-- **C44.** `min` and `max` apply `std::min` and `std::max` lane by lane, for every comparison. -/
theorem min_max_lanewise (lt : α → α → Bool) (a b : List α) (h : a.length = b.length) :
    minV lt a b = .ok (List.zipWith (stdMin lt) a b) ∧ maxV lt a b = .ok (List.zipWith (stdMax lt) a b) ∧
      minmaxV lt a b = .ok (List.zipWith (stdMin lt) a b, List.zipWith (stdMax lt) a b) := by
  refine ⟨minV_eq lt a b h, maxV_eq lt a b h, ?_⟩
  simp [minmaxV, minV_eq lt a b h, maxV_eq lt a b h]

/-- **C44.** For totally ordered values `minmax` is, lane by lane, the pair of arguments in ascending order. -/
theorem minmax_sorted {lt : α → α → Bool} (hsw : StrictWeak lt)
    (hext : ∀ a b, lt a b = false → lt b a = false → a = b) (a b : List α) (h : a.length = b.length) :
    ∃ lo hi, minmaxV lt a b = .ok (lo, hi) ∧ lo.length = a.length ∧ hi.length = a.length ∧
      ∀ (i : Nat) (x y : α), a[i]? = some x → b[i]? = some y →
        ∃ l u, lo[i]? = some l ∧ hi[i]? = some u ∧ lt u l = false ∧ (l = x ∧ u = y ∨ l = y ∧ u = x) := by
  refine ⟨_, _, (min_max_lanewise lt a b h).2.2, by simp [h], by simp [h], fun i x y hx hy => ?_⟩
  refine ⟨stdMin lt x y, stdMax lt x y, by simp [List.getElem?_zipWith, hx, hy], by simp [List.getElem?_zipWith, hx, hy], ?_⟩
  unfold stdMin stdMax
  cases h1 : lt y x with
  | true => simp [hsw.asymm y x h1]
  | false =>
    cases h2 : lt x y with
    | true => simp [h1]
    | false => obtain rfl := hext x y h2 h1; simp [h1]

/-- **C44.** Equivalent but distinguishable values are not sorted but duplicated: `minmax` of `+0.0f` and `-0.0f` is `+0.0f`
twice, while `std::minmax` returns both. -/
theorem minmax_zeros : minmaxV f32lt [0x00000000#32] [0x80000000#32] = .ok ([0x00000000#32], [0x00000000#32]) := by
  decide +kernel

private theorem clampV_eq (lt : α → α → Bool) (v lo hi r : List α) (hlen : r.length = v.length)
    (h : ∀ (i : Nat) (x : α), r[i]? = some x → ∃ a l u, v[i]? = some a ∧ lo[i]? = some l ∧ hi[i]? = some u ∧
      stdClamp lt a l u = .ok x) : clampV lt v lo hi = .ok r := by
  refine gen_list hlen fun j x hj => ?_
  obtain ⟨a, l, u, h1, h2, h3, h4⟩ := h j x hj
  simp [at', h1, h2, h3, h4]

/-- **C44.** `clamp(v, lo, hi)`, provided no lane of `hi` is less than the lane of `lo`: every lane of the result lies
between the bounds, and is the lane of `v` if that lies between the bounds, else the bound it violates. -/
theorem clamp_spec {lt : α → α → Bool} (hsw : StrictWeak lt) (v lo hi : List α) (h1 : lo.length = v.length)
    (h2 : hi.length = v.length)
    (hb : ∀ (i : Nat) (l u : α), lo[i]? = some l → hi[i]? = some u → lt u l = false) :
    ∃ r, clampV lt v lo hi = .ok r ∧ r.length = v.length ∧
      ∀ (i : Nat) (a l u : α), v[i]? = some a → lo[i]? = some l → hi[i]? = some u →
        ∃ x, r[i]? = some x ∧ lt x l = false ∧ lt u x = false ∧
          (lt a l = false → lt u a = false → x = a) ∧ (lt a l = true → x = l) ∧ (lt u a = true → x = u) := by
  let c (a l u : α) : α := if lt a l then l else if lt u a then u else a
  have hget : ∀ (i : Nat) (a l u : α), v[i]? = some a → lo[i]? = some l → hi[i]? = some u →
      (List.zipWith (fun a p => c a p.1 p.2) v (lo.zip hi))[i]? = some (c a l u) := by
    intro i a l u ha hl hu
    have hz : (lo.zip hi)[i]? = some (l, u) := by simp [List.getElem?_zip_eq_some, hl, hu]
    rw [List.getElem?_zipWith, ha, hz]
  refine ⟨List.zipWith (fun a p => c a p.1 p.2) v (lo.zip hi), clampV_eq lt _ _ _ _ (by simp; omega) ?_, by simp; omega, ?_⟩
  · intro i x hx
    have hi' : i < v.length := by
      have := (List.getElem?_eq_some_iff.1 hx).1
      simp at this; omega
    refine ⟨_, _, _, List.getElem?_eq_getElem hi', List.getElem?_eq_getElem (by omega), List.getElem?_eq_getElem (by omega), ?_⟩
    rw [hget i _ _ _ (List.getElem?_eq_getElem hi') (List.getElem?_eq_getElem (by omega))
      (List.getElem?_eq_getElem (by omega)), Option.some.injEq] at hx
    rw [stdClamp, hb i _ _ (List.getElem?_eq_getElem (by omega)) (List.getElem?_eq_getElem (by omega)), ← hx]
    rfl
  · intro i a l u ha hl hu
    have hlu := hb i l u hl hu
    refine ⟨c a l u, hget i a l u ha hl hu, ?_⟩
    simp only [c]
    cases h3 : lt a l with
    | true =>
      refine ⟨by simpa using irrefl hsw l, by simpa using hlu, by simp, by simp, fun h => ?_⟩
      have := hsw.negTrans u l a hlu (hsw.asymm a l h3)
      rw [this] at h; exact absurd h (by decide)
    | false =>
      cases h4 : lt u a with
      | true => exact ⟨by simpa using hlu, by simpa using irrefl hsw u, by simp, by simp, by simp⟩
      | false => exact ⟨by simpa using h3, by simpa using h4, by simp, by simp, by simp⟩

/-- **C44.** If a lane of `hi` is less than the lane of `lo` then `clamp` is undefined, as `std::clamp` is. -/
theorem clamp_undefined {lt : α → α → Bool} (v lo hi : List α) (h1 : lo.length = v.length)
    (h2 : hi.length = v.length) {i : Nat} {l u : α} (hl : lo[i]? = some l) (hu : hi[i]? = some u) (hlt : lt u l = true) :
    clampV lt v lo hi = .ub .unreachable := by
  have hi' : i < v.length := by
    have := (List.getElem?_eq_some_iff.1 hl).1
    omega
  refine gen_ub (fun j hj => ?_) hi' ?_
  · rw [at'_eq hj, at'_eq (show j < lo.length by omega), at'_eq (show j < hi.length by omega)]
    simp only [Outcome.bind_ok, stdClamp]
    split
    · exact .inr rfl
    · exact .inl ⟨_, rfl⟩
  · simp [at', List.getElem?_eq_getElem hi', hl, hu, stdClamp, hlt]

/-! ### the theorems are about something -/

example : StrictWeak (fun a b : Int => decide (a < b)) :=
  ⟨by simp; omega, by simp; omega⟩
example : ∀ a b : Int, decide (a < b) = false → decide (b < a) = false → a = b := by simp; omega
example : reduceV (fun l r => .ok (List.zipWith (· - ·) l r)) (· - ·) [1, 2, 3, 4, 5, 6, 7, (8 : Int)] = .ok 0 := by decide
example : reduceV (fun l r => .ok (List.zipWith (fun a b => s!"({a}{b})") l r)) (fun a b => s!"({a}{b})")
    ["a", "b", "c", "d", "e", "f", "g"] = .ok "(((ac)(bd))((ef)g))" := by decide +kernel
example : hmin (fun a b : Int => decide (a < b)) [3, 1, 2, 5, 9] = .ok 1 ∧
    hmax (fun a b : Int => decide (a < b)) [3, 1, 2, 5, 9] = .ok 9 := by decide
example : hminMasked (fun a b : Int => decide (a < b)) 127 [true, false, true] [3, 1, 2] = .ok 2 ∧
    selected [true, false, true] [3, 1, (2 : Int)] = [3, 2] ∧
    (∀ y ∈ [3, 1, (2 : Int)], decide (127 < y) = false) := by decide
example : clampV (fun a b : Int => decide (a < b)) [1, 5, 9] [2, 2, 2] [7, 7, 7] = .ok [2, 5, 7] ∧
    clampV (fun a b : Int => decide (a < b)) [1, 5, 9] [2, 2, 8] [7, 7, 7] = .ub .unreachable := by decide

/-! ## The theorems applied to concrete data -/

private theorem ltInt : StrictWeak (fun a b : Int => decide (a < b)) := ⟨by simp; omega, by simp; omega⟩

private theorem ltInt_ext : ∀ a b : Int, decide (a < b) = false → decide (b < a) = false → a = b := by simp; omega

private def addI (l r : List Int) : Outcome (List Int) := .ok (List.zipWith (· + ·) l r)

example := reduceV_is_gsum (vop := addI) (op := (· + ·)) (fun _ _ _ => rfl) [3, -1, 4] (by simp) (by decide)
example := reduceV_eq_fold (vop := addI) (op := (· + ·)) (fun _ _ _ => rfl) Int.add_assoc Int.add_comm 3 [-1, 4, 1, 5] (by decide)
example := reduceV_meets_HReduce (vop := addI) (op := (· + ·)) (fun _ _ _ => rfl)
example := hmin_spec ltInt [3, -1, 4] (by simp) (by decide)
example := hmax_spec ltInt [3, -1, 4] (by simp) (by decide)
example := reduceMasked_spec [true, false, true] [3, -1, (4 : Int)] rfl 0 (· + ·)
example := reduceMasked_all (vop := addI) (op := (· + ·)) (fun _ _ _ => rfl) Int.add_assoc Int.add_comm 0 Int.zero_add [3, -1, 4] (by simp) (by decide)
example := hminMasked_spec ltInt 127 [true, false, true] [3, -1, 4] rfl
example := hmaxMasked_spec ltInt (-128) [true, false, true] [3, -1, 4] rfl
example := hminMasked_least_partial ltInt ltInt_ext 127 [true, false, true] [3, -1, 4] rfl (by decide) (by decide)
example := hmaxMasked_greatest_partial ltInt ltInt_ext (-128) [true, false, true] [3, -1, 4] rfl (by decide) (by decide)
example := min_max_lanewise (fun a b : Int => decide (a < b)) [1, 5, 3] [4, 2, 3] rfl
example := minmax_sorted ltInt ltInt_ext [1, 5, 3] [4, 2, 3] rfl
example := clamp_spec ltInt [1, 5, 9] [2, 2, 2] [7, 7, 7] rfl rfl (by
  intro i l u hl hu
  have h1 := List.mem_of_getElem? hl
  have h2 := List.mem_of_getElem? hu
  simp at h1 h2
  subst h1; subst h2; decide)
example := clamp_undefined (lt := fun a b : Int => decide (a < b)) [1, 5, 9] [2, 2, 8] [7, 7, 7] rfl rfl (i := 2) rfl rfl (by decide)

end Vir.Simd
