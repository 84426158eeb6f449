import Verif.Model.CountIf
import Verif.Lemmas.ForEachConst
import Verif.Lemmas.MaskReductions
import Verif.Lemmas.SimdWhere
import Verif.Spec.Reduce

namespace Vir.CountIf
open Vir Vir.Spec Vir.Simd Vir.ForEach

variable {α : Type}

/-- After counting `T` elements: the counters add up to `T`, or one of them has overflowed. -/
def J (sz : Nat) (st : Counters) (T : Nat) : Prop :=
  (∃ c v, st = .ok (c, v) ∧ 0 ≤ c ∧ c < 2 ^ 31 ∧ v.length = sz ∧ (∀ x ∈ v, 0 ≤ x ∧ x < 2 ^ 31) ∧ c + v.sum = T) ∨
    (st = .ub .overflow ∧ 2 ^ 31 ≤ T)

theorem sum_nonneg {v : List Int} (h : ∀ x ∈ v, 0 ≤ x) : 0 ≤ v.sum := by
  induction v with
  | nil => simp
  | cons a v ih =>
    have h1 := h a (by simp)
    have h2 := ih (fun x hx => h x (by simp [hx]))
    simp only [List.sum_cons]
    omega

theorem le_sum {v : List Int} (h : ∀ x ∈ v, 0 ≤ x) {x : Int} (hx : x ∈ v) : x ≤ v.sum := by
  induction v with
  | nil => simp at hx
  | cons a v ih =>
    have h1 := h a (by simp)
    have h2 := sum_nonneg (v := v) (fun x hx => h x (by simp [hx]))
    simp only [List.sum_cons]
    rcases List.mem_cons.1 hx with rfl | hx
    · omega
    · have := ih (fun x hx => h x (by simp [hx])) hx
      omega

theorem sum_inc (k : List Bool) (v : List Int) (h : k.length = v.length) :
    (List.zipWith (fun b x => if b then x + 1 else x) k v).sum = v.sum + (k.count true : Nat) := by
  induction k generalizing v with
  | nil => cases v <;> simp_all
  | cons b k ih =>
    cases v with
    | nil => simp at h
    | cons x v =>
      have := ih v (by simpa using h)
      cases b <;> simp [this] <;> omega

theorem J_incCountv {sz : Nat} (p : Pred α) {c : Int} {v : List Int} {x : List α} {T : Nat} (hx : x.length = sz)
    (h : J sz (.ok (c, v)) T) : J sz (incCountv p x (c, v)) (T + (p.call x).count true) := by
  rcases h with ⟨c', v', h, h0, h1, h2, h3, h4⟩ | ⟨h, _⟩
  swap
  · simp at h
  obtain ⟨rfl, rfl⟩ : c = c' ∧ v = v' := by simpa using h
  have hk : (p.call x).length = v.length := by rw [p.shape, hx, h2]
  simp only [incCountv]
  generalize p.call x = k at hk ⊢
  by_cases hov : ∃ (j : Nat) (y : Int), v[j]? = some y ∧ k[j]? = some true ∧ y + 1 = 2 ^ 31
  · obtain ⟨j, y, hj, hkj, hy⟩ := hov
    right
    refine ⟨?_, ?_⟩
    · rw [whereIncDec, maskedUpdate_ub (f := fun _ x => addInt x 1) hk (u := .overflow) _ hj hkj
        (by simp only [addInt]; rw [if_neg (by omega)]), Outcome.bind_ub]
      intro i y _ _
      unfold addInt
      split
      · exact Or.inl ⟨_, rfl⟩
      · exact Or.inr rfl
    · have h5 := le_sum (fun x hx => (h3 x hx).1) (List.mem_of_getElem? hj)
      have h6 : 0 < k.count true := List.count_pos_iff.2 (List.mem_of_getElem? hkj)
      omega
  · left
    refine ⟨c, List.zipWith (fun b x => if b then x + 1 else x) k v, ?_, h0, h1, by simp; omega, ?_, ?_⟩
    · rw [whereIncDec, maskedUpdate_eq (r := List.zipWith (fun b x => if b then x + 1 else x) k v) hk (by simp; omega)]
      · rfl
      · intro i hi
        have h5 := h3 _ (List.getElem_mem hi)
        rw [List.getElem_zipWith]
        split
        · rename_i hki
          have : v[i] + 1 ≠ 2 ^ 31 := fun h => hov ⟨i, v[i], List.getElem?_eq_getElem hi, by
            rw [List.getElem?_eq_getElem (by omega), hki], h⟩
          rw [addInt, if_pos (by omega)]
        · rfl
    · intro y hy
      obtain ⟨i, hi, rfl⟩ := List.getElem_of_mem hy
      rw [List.getElem_zipWith]
      have hiv : i < v.length := by simp at hi; omega
      have h5 := h3 _ (List.getElem_mem hiv)
      split
      · rename_i hki
        have : v[i] + 1 ≠ 2 ^ 31 := fun h => hov ⟨i, v[i], List.getElem?_eq_getElem hiv, by
          rw [List.getElem?_eq_getElem (by omega), hki], h⟩
        show 0 ≤ v[i] + 1 ∧ v[i] + 1 < 2 ^ 31
        omega
      · exact h5
    · rw [sum_inc k v hk]
      omega

theorem J_incCount {sz : Nat} (p : Pred α) {c : Int} {v : List Int} {x : List α} {T : Nat} (hx : x ≠ [])
    (h : J sz (.ok (c, v)) T) : J sz (incCount p x (c, v)) (T + (p.call x).count true) := by
  rcases h with ⟨c', v', h, h0, h1, h2, h3, h4⟩ | ⟨h, _⟩
  swap
  · simp at h
  obtain ⟨rfl, rfl⟩ : c = c' ∧ v = v' := by simpa using h
  have hk : p.call x ≠ [] := by
    intro hk
    have := p.shape x
    rw [hk] at this
    exact hx (List.length_eq_zero_iff.1 this.symm)
  have hn := sum_nonneg (fun x hx => (h3 x hx).1)
  simp only [incCount, popcount_eq _ hk, Outcome.bind_ok]
  by_cases hov : c + ((p.call x).count true : Nat) < 2 ^ 31
  · left
    refine ⟨c + ((p.call x).count true : Nat), v, ?_, by omega, hov, h2, h3, by omega⟩
    rw [addInt, if_pos (by omega)]
    rfl
  · right
    refine ⟨?_, by omega⟩
    rw [addInt, if_neg (by omega)]
    rfl

/-- One element-wise predicate call is all there is during constant evaluation. -/
theorem incCountAll_single (p : Pred α) (x : List α) (s : Int × List Int) : incCountAll p [x] s = incCount p x s := by
  have h1 : [x].dropLast = ([] : List (List α)) := rfl
  have h2 : [x].getLast? = some x := rfl
  simp only [incCountAll, incCount, h1, h2, List.foldr_nil]
  cases popcount (p.call x) <;> rfl

theorem J_foldl {sz : Nat} (p : Pred α) (args : List (List α)) (st : Counters) (T : Nat) (hx : ∀ x ∈ args, x.length = sz)
    (h : J sz st T) :
    J sz (args.foldl (fun s x => do incCountv p x (← s)) st) (T + (args.map fun x => (p.call x).count true).sum) := by
  induction args generalizing st T with
  | nil => simpa using h
  | cons x args ih =>
    simp only [List.foldl_cons, List.map_cons, List.sum_cons, ← Nat.add_assoc]
    refine ih _ _ (fun y hy => hx y (by simp [hy])) ?_
    rcases h with ⟨c, v, rfl, h⟩ | ⟨rfl, h⟩
    · exact J_incCountv p (hx x (by simp)) (Or.inl ⟨c, v, rfl, h⟩)
    · exact Or.inr ⟨rfl, by omega⟩

/-- One invocation of the lambda. -/
theorem J_call {e : Env} {ps : Bool} (p : Pred α) (args : List (List α)) (st : Counters) (T : Nat)
    (hx : (∃ x, args = [x] ∧ x ≠ []) ∨ (e.constEval = false ∧ ∀ x ∈ args, x.length = e.size))
    (h : J e.size st T) :
    J e.size ((callable e ps p).call st args).1 (T + (args.map fun x => (p.call x).count true).sum) := by
  simp only [callable]
  rcases h with ⟨c, v, rfl, h⟩ | ⟨rfl, h⟩
  swap
  · exact Or.inr ⟨rfl, by omega⟩
  have hJ : J e.size (.ok (c, v)) T := Or.inl ⟨c, v, rfl, h⟩
  rw [Outcome.bind_ok]
  unfold lambda
  by_cases hc : (ps && e.constEval) = true
  · rw [if_pos hc]
    have hce : e.constEval = true := by simp_all
    rcases hx with ⟨x, rfl, hx⟩ | ⟨h, _⟩
    · rw [incCountAll_single]
      simpa using J_incCount p hx hJ
    · rw [hce] at h; exact absurd h (by simp)
  · rw [if_neg hc]
    split
    · rename_i x
      have h2 := h.2.2.1
      split
      · rename_i hl
        simpa using J_incCountv p (by rw [hl, h2]) hJ
      · rename_i hl
        have hxne : x ≠ [] := by
          rcases hx with ⟨y, hy, hy'⟩ | ⟨_, hy⟩
          · obtain rfl : x = y := by simpa using hy
            exact hy'
          · exact absurd ((hy x (by simp)).trans h2.symm) hl
        simpa using J_incCount p hxne hJ
    · rename_i hns
      rcases hx with ⟨x, rfl, _⟩ | ⟨_, hx⟩
      · exact absurd rfl (hns x)
      · exact J_foldl p args _ T hx hJ

/-- The invocations `for_each` makes: one argument, or several of the full width. -/
def CallOk (e : Env) (c : Call) : Prop := 0 < c.w ∧ (c.k = 1 ∨ (e.constEval = false ∧ c.w = e.size))

/-- All chunks of a traversal, in order. -/
def allChunks : List Call → List α → List (List α)
  | [], _ => []
  | c :: cs, xs => chunks c.w c.k xs ++ allChunks cs (xs.drop c.elems)

theorem allChunks_flatten (cs : List Call) (xs : List α) : (allChunks cs xs).flatten = xs.take (elems cs) := by
  induction cs generalizing xs with
  | nil => simp [allChunks, elems]
  | cons c cs ih =>
    simp only [allChunks, List.flatten_append, chunks_flatten, ih, elems_cons, Call.elems]
    rw [List.take_add]

theorem J_run {e : Env} {ps : Bool} (p : Pred α) (cs : List Call) (hcs : ∀ c ∈ cs, CallOk e c) (st : Counters) (T : Nat)
    (xs : List α) (hel : elems cs ≤ xs.length) (h : J e.size st T) :
    J e.size (run (callable e ps p) false cs st xs).1 (T + ((allChunks cs xs).map fun x => (p.call x).count true).sum) := by
  induction cs generalizing st T xs with
  | nil => simpa [run, allChunks] using h
  | cons c cs ih =>
    rw [elems_cons] at hel
    simp only [run, allChunks, List.map_append, List.sum_append, ← Nat.add_assoc]
    refine ih (fun d hd => hcs d (by simp [hd])) _ _ _ (by simp; omega) ?_
    refine J_call p _ st T ?_ h
    obtain ⟨hw, hk⟩ := hcs c (by simp)
    have hlen := chunks_map_length c.w c.k xs (by simp only [Call.elems] at hel; omega)
    rcases hk with hk | ⟨h1, h2⟩
    · left
      rw [hk] at hlen ⊢
      refine ⟨xs.take c.w, rfl, ?_⟩
      intro h0
      simp [chunks, h0] at hlen
      omega
    · right
      refine ⟨h1, fun x hx => ?_⟩
      have : x.length ∈ (chunks c.w c.k xs).map List.length := List.mem_map_of_mem hx
      rw [hlen] at this
      rw [(List.mem_replicate.1 this).2, h2]

theorem mem_bitsAsc_pos {n w : Nat} (h : w ∈ bitsAsc n) : 0 < w := by
  obtain ⟨j, _, _, rfl, _⟩ := mem_ascBits h
  exact Nat.two_pow_pos j

theorem mem_bitsDesc_pos {n w : Nat} (h : w ∈ bitsDesc n) : 0 < w := by
  obtain ⟨j, _, rfl, _⟩ := mem_descBits h
  exact Nat.two_pow_pos j

theorem callsOf_ok {e : Env} (hs : 0 < e.size) (hce : e.constEval = false) (n : Nat) : ∀ c ∈ callsOf e n, CallOk e c := by
  intro c hc
  unfold callsOf at hc
  split at hc
  · simp at hc
  · simp only [List.mem_append, List.mem_replicate, singles, List.mem_map] at hc
    rcases hc with ⟨w, hw, rfl⟩ | ⟨_, rfl⟩ | ⟨_, rfl⟩ | ⟨w, hw, rfl⟩
    · exact ⟨mem_bitsAsc_pos hw, Or.inl rfl⟩
    · exact ⟨hs, Or.inr ⟨hce, rfl⟩⟩
    · exact ⟨hs, Or.inl rfl⟩
    · exact ⟨mem_bitsDesc_pos hw, Or.inl rfl⟩

theorem constCallsOf_ok {e : Env} (hs : 0 < e.size) (n : Nat) : ∀ c ∈ constCallsOf e n, CallOk e c := by
  intro c hc
  simp only [constCallsOf, List.mem_append, List.mem_replicate, singles, List.mem_map] at hc
  rcases hc with ⟨_, rfl⟩ | ⟨w, hw, rfl⟩
  · exact ⟨hs, Or.inl rfl⟩
  · exact ⟨mem_bitsDesc_pos hw, Or.inl rfl⟩

/-- The start state. -/
theorem J_init (sz : Nat) : J sz (.ok (0, List.replicate sz 0)) 0 := by
  left
  refine ⟨0, List.replicate sz 0, rfl, by omega, by omega, by simp, ?_, ?_⟩
  · intro x hx
    rw [(List.mem_replicate.1 hx).2]; omega
  · simp

/-- Horizontal sum of non-negative `int`s: the sum, or an overflow if the sum is too large. -/
theorem gsum_addO {L : List (Outcome Int)} {x : Outcome Int} (h : GSum addO L x) :
    ∀ v : List Int, L = v.map .ok → (∀ y ∈ v, 0 ≤ y ∧ y < 2 ^ 31) →
      (x = .ok v.sum ∧ v.sum < 2 ^ 31) ∨ (x = .ub .overflow ∧ 2 ^ 31 ≤ v.sum) := by
  induction h with
  | single y =>
    intro v hv h
    match v, hv with
    | [z], hv =>
      simp only [List.map_cons, List.map_nil, List.cons.injEq, and_true] at hv
      left
      have := h z (by simp)
      exact ⟨by simp [hv], by simp; omega⟩
  | @node xs ys a b ha hb iha ihb =>
    intro v hv h
    obtain ⟨v1, v2, rfl, h1, h2⟩ := List.append_eq_map_iff.1 hv
    have p1 := iha v1 h1.symm (fun y hy => h y (by simp [hy]))
    have p2 := ihb v2 h2.symm (fun y hy => h y (by simp [hy]))
    have n1 := sum_nonneg (v := v1) (fun y hy => (h y (by simp [hy])).1)
    have n2 := sum_nonneg (v := v2) (fun y hy => (h y (by simp [hy])).1)
    rw [List.sum_append]
    rcases p1 with ⟨rfl, p1⟩ | ⟨rfl, p1⟩
    · rcases p2 with ⟨rfl, p2⟩ | ⟨rfl, p2⟩
      · simp only [addO, Outcome.bind_ok, addInt]
        by_cases hs : v1.sum + v2.sum < 2 ^ 31
        · left; rw [if_pos (by omega)]; exact ⟨rfl, hs⟩
        · right; rw [if_neg (by omega)]; exact ⟨rfl, by omega⟩
      · right; exact ⟨rfl, by omega⟩
    · right; exact ⟨rfl, by omega⟩
  | @perm xs ys a hp _ ih =>
    intro v hv h
    have hall : ∀ o ∈ xs, ∃ y, o = .ok y := by
      intro o ho
      have := hp.mem_iff.1 ho
      rw [hv] at this
      obtain ⟨y, _, rfl⟩ := List.mem_map.1 this
      exact ⟨y, rfl⟩
    let val : Outcome Int → Int := fun o => match o with | .ok y => y | _ => 0
    have hxs : xs = (xs.map val).map .ok := by
      rw [List.map_map]
      symm
      conv => rhs; rw [← List.map_id xs]
      refine List.map_congr_left (fun o ho => ?_)
      obtain ⟨y, rfl⟩ := hall o ho
      rfl
    have hpv : (xs.map val).Perm v := by
      have := hp.map val
      rw [hv, List.map_map] at this
      have hid : val ∘ Outcome.ok = id := rfl
      rwa [hid, List.map_id] at this
    have := ih (xs.map val) hxs (fun y hy => h y (hpv.mem_iff.1 hy))
    have hsum : (xs.map val).sum = v.sum := hpv.foldr_eq' (f := (· + ·)) (fun _ _ _ _ _ => by omega) 0
    rwa [hsum] at this

/-- The final additions. -/
theorem final_sum {sz : Nat} {hred : List (Outcome Int) → Outcome Int}
    (hh : ∀ v : List (Outcome Int), v.length = sz → GSum addO v (hred v)) {st : Counters}
    {T : Nat} (h : J sz st T) :
    (do let (count, countv) ← st; addInt count (← sumCountv hred countv)) =
      if T < 2 ^ 31 then .ok (T : Int) else .ub .overflow := by
  rcases h with ⟨c, v, rfl, h0, h1, h2, h3, h4⟩ | ⟨rfl, h⟩
  · have hn := sum_nonneg (fun x hx => (h3 x hx).1)
    simp only [Outcome.bind_ok, sumCountv]
    rcases gsum_addO (hh (v.map Outcome.ok) (by simpa using h2)) v rfl h3 with ⟨hr, hlt⟩ | ⟨hr, hge⟩
    · rw [hr, Outcome.bind_ok, addInt]
      by_cases hT : T < 2 ^ 31
      · rw [if_pos hT, if_pos (by omega), h4]
      · rw [if_neg hT, if_neg (by omega)]
    · rw [hr, if_neg (by omega)]
      rfl
  · rw [if_neg (by omega)]
    rfl

theorem count_laneWise {p : Pred α} {q : α → Bool} (hq : ∀ x, p.call x = x.map q) (L : List (List α)) :
    (L.map fun x => (p.call x).count true).sum = L.flatten.countP q := by
  induction L with
  | nil => rfl
  | cons x L ih =>
    have : (p.call x).count true = x.countP q := by
      rw [hq, List.count_eq_countP, List.countP_map]
      congr 1
      funext a
      simp
    rw [List.map_cons, List.sum_cons, List.flatten_cons, List.countP_append, ih, this]

end Vir.CountIf
