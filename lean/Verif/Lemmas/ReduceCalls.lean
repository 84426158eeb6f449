import Verif.Spec.ReduceCalls
import Verif.Lemmas.ReduceEffectsPure
import Verif.Lemmas.SimdReduce

namespace Vir
open Spec ForEach

namespace Simd
open Eff TransformReduce

variable {σ α τ : Type}

/-- What calls of `reduce_op` do: the second index of `I` is the number of values not yet combined. -/
structure CPrims (I : Nat → Nat → σ → Prop) (X : σ → Prop) (ops : COps σ α τ) : Prop where
  vec : ∀ p u x y, x.length = y.length → (∃ k, x.length = 2 ^ (k + 1)) →
    Tri I X (fun _ => False) p (u + 1 + x.length) p (u + 1) (fun v => v.length = x.length) (invoke fun s => ops.vec s x y)
  val : ∀ p u x y, Tri I X (fun _ => False) p (u + 2) p (u + 1) (fun _ => True) (invoke fun s => ops.val s x y)

variable {I : Nat → Nat → σ → Prop} {X : σ → Prop} {ops : COps σ α τ}

theorem reduceLoopE_tri (pr : CPrims I X ops) (p u : Nat) (v : List τ) (m i : Nat) (h : i + m = v.length) (r : τ) :
    Tri I X (fun _ => False) p (u + 1 + m) p (u + 1) (fun _ => True) (reduceLoopE ops v m i r) := by
  induction m generalizing i r with
  | zero => exact Tri.ret _ trivial
  | succ m ih =>
    unfold reduceLoopE
    rw [at'_eq (by omega)]
    simp only [lift_ok, pure_bind']
    exact Tri.bind (Tri.from (by omega) (pr.val p (u + m) r _)) fun a _ => Tri.from (by omega) (ih (i + 1) (by omega) a)

theorem reduceE_tri (pr : CPrims I X ops) (rev : Nat → Bool) (p u fuel : Nat) (v : List τ) (h0 : v ≠ []) (hf : v.length ≤ fuel)
    (h64 : v.length < 2 ^ 64) :
    Tri I X (fun _ => False) p (u + v.length) p (u + 1) (fun _ => True) (reduceE ops rev fuel v) := by
  induction fuel generalizing v u with
  | zero => exact absurd (List.length_eq_zero_iff.1 (by omega)) h0
  | succ fuel ih =>
    unfold reduceE
    simp only
    by_cases hn : v.length > 3
    · rw [if_pos hn]
      obtain ⟨k, hk1, hk2⟩ := BitUtils.exists_bracket (x := v.length / 2) (by omega)
      have hk : k < 64 := (Nat.pow_lt_pow_iff_right (a := 2) (by decide)).1 (by omega)
      rw [BitUtils.bitFloor_pow hk1 hk2 hk]
      simp only [lift_ok, pure_bind']
      generalize hn2 : 2 ^ k = n2 at hk1 hk2
      rw [Nat.pow_succ, hn2] at hk2
      have hn2pos : 0 < n2 := hn2 ▸ Nat.two_pow_pos k
      have hle : 2 * n2 ≤ v.length := by omega
      have hl : (v.take n2).length = n2 := by simp; omega
      have hr : ((v.drop n2).take n2).length = n2 := by simp; omega
      have hvec : ∀ u, Tri I X (fun _ => False) p (u + 1 + n2) p (u + 1) (fun v => v.length = n2)
          (invoke fun s => ops.vec s (v.take n2) ((v.drop n2).take n2)) := by
        intro u
        have hk2 : ∃ j, n2 = 2 ^ (j + 1) := by
          cases k with
          | zero => simp at hn2; omega
          | succ j => exact ⟨j, hn2.symm⟩
        have := pr.vec p u (v.take n2) ((v.drop n2).take n2) (by omega) (by rw [hl]; exact hk2)
        rwa [hl] at this
      have hred : ∀ (u w : Nat) (x : List τ), x.length = w → 0 < w → w ≤ fuel → w < v.length →
          Tri I X (fun _ => False) p (u + w) p (u + 1) (fun _ => True) (reduceE ops rev fuel x) := by
        intro u w x hx hw hwf hwv
        subst hx
        exact ih u x (ne_nil_of_length rfl hw) hwf (by omega)
      by_cases hrem : v.length - 2 * n2 > 0
      · rw [if_pos hrem, splitSizes_eq (by simp; omega)]
        simp only [cut, lift_ok, pure_bind']
        have hm : (((v.drop n2).drop n2).take (v.length - 2 * n2)).length = v.length - 2 * n2 := by simp; omega
        generalize hb : ((v.drop n2).drop n2).take (v.length - 2 * n2) = rem at hm
        split
        · refine Tri.bind (Tri.from (by omega) (hred (u + 2 * n2) _ rem hm hrem (by omega) (by omega))) fun b _ => ?_
          refine Tri.bind (Tri.from (by omega) (hvec (u + n2))) fun x hx => ?_
          refine Tri.bind (Tri.from (by omega) (hred (u + 1) _ x hx hn2pos (by omega) (by omega))) fun a _ => ?_
          exact pr.val p u a b
        · refine Tri.bind (Tri.from (by omega) (hvec (u + (v.length - 2 * n2) + n2 - 1))) fun x hx => ?_
          refine Tri.bind (Tri.from (by omega) (hred (u + (v.length - 2 * n2)) _ x hx hn2pos (by omega) (by omega))) fun a _ => ?_
          refine Tri.bind (Tri.from (by omega) (hred (u + 1) _ rem hm hrem (by omega) (by omega))) fun b _ => ?_
          exact pr.val p u a b
      · rw [if_neg hrem, splitSizes_eq (by simp; omega)]
        simp only [cut, lift_ok, pure_bind']
        refine Tri.bind (Tri.from (by omega) (hvec (u + n2 - 1))) fun x hx => ?_
        exact Tri.from (by omega) (hred u _ x hx hn2pos (by omega) (by omega))
    · rw [if_neg hn]
      have hpos := List.length_pos_of_ne_nil h0
      rw [at'_eq hpos]
      simp only [lift_ok, pure_bind']
      exact Tri.from (by omega) (reduceLoopE_tri pr p u v (v.length - 1) 1 (by omega) _)

/-! ### Without effects -/

theorem reduceLoopE_pure (trans : VecOp α τ) (op : τ → τ → τ) (v : List τ) (m i : Nat) (r : τ) :
    (reduceLoopE (pureC trans op) v m i r : Eff σ τ) = lift (forUp (fun i r => do .ok (op r (← at' v i))) m i r) := by
  induction m generalizing i r with
  | zero => rfl
  | succ m ih =>
    unfold reduceLoopE forUp
    rw [Outcome.bind_assoc, lift_bind]
    refine bind_congr' fun x => ?_
    exact ih (i + 1) (op r x)

theorem reduceE_pure (trans : VecOp α τ) (op : τ → τ → τ) (rev : Nat → Bool) (fuel : Nat) (v : List τ) (h0 : v ≠ [])
    (hf : v.length ≤ fuel) (h64 : v.length < 2 ^ 64) :
    (reduceE (pureC trans op) rev fuel v : Eff σ τ) = lift (reduceF (fun x y => .ok (List.zipWith op x y)) op fuel v) := by
  induction fuel generalizing v with
  | zero => exact absurd (List.length_eq_zero_iff.1 (by omega)) h0
  | succ fuel ih =>
    unfold reduceE reduceF
    simp only
    have hvec : ∀ x y, (invoke fun s => (pureC trans op : COps σ α τ).vec s x y) = pure (List.zipWith op x y) := fun _ _ => rfl
    have hval : ∀ x y, (invoke fun s => (pureC trans op : COps σ α τ).val s x y) = pure (op x y) := fun _ _ => rfl
    by_cases hn : v.length > 3
    · rw [if_pos hn, if_pos hn]
      obtain ⟨k, hk1, hk2⟩ := BitUtils.exists_bracket (x := v.length / 2) (by omega)
      have hk : k < 64 := (Nat.pow_lt_pow_iff_right (a := 2) (by decide)).1 (by omega)
      rw [BitUtils.bitFloor_pow hk1 hk2 hk]
      simp only [lift_ok, pure_bind', Outcome.bind_ok]
      generalize hn2 : 2 ^ k = n2 at hk1 hk2
      rw [Nat.pow_succ, hn2] at hk2
      have hn2pos : 0 < n2 := hn2 ▸ Nat.two_pow_pos k
      have hzl : (List.zipWith op (v.take n2) ((v.drop n2).take n2)).length = n2 := by simp; omega
      have hz := ih (List.zipWith op (v.take n2) ((v.drop n2).take n2)) (ne_nil_of_length hzl hn2pos) (by omega) (by omega)
      by_cases hrem : v.length - 2 * n2 > 0
      · rw [if_pos hrem, if_pos hrem, splitSizes_eq (by simp; omega)]
        simp only [cut, lift_ok, pure_bind', Outcome.bind_ok, hvec, hval]
        have hm : (((v.drop n2).drop n2).take (v.length - 2 * n2)).length = v.length - 2 * n2 := by simp; omega
        have hb := ih (((v.drop n2).drop n2).take (v.length - 2 * n2)) (ne_nil_of_length hm hrem) (by omega) (by omega)
        obtain ⟨x, hx, _⟩ := reduceF_gsum (op := op) (fun l r _ => rfl) fuel
          (List.zipWith op (v.take n2) ((v.drop n2).take n2)) (ne_nil_of_length hzl hn2pos) (by omega) (by omega)
        obtain ⟨y, hy, _⟩ := reduceF_gsum (op := op) (fun l r _ => rfl) fuel
          (((v.drop n2).drop n2).take (v.length - 2 * n2)) (ne_nil_of_length hm hrem) (by omega) (by omega)
        rw [hx] at hz
        rw [hy] at hb
        simp only [hz, hb, hx, hy, lift_ok, pure_bind', Outcome.bind_ok, ite_self]
      · rw [if_neg hrem, if_neg hrem, splitSizes_eq (by simp; omega)]
        simp only [cut, lift_ok, pure_bind', Outcome.bind_ok, hvec]
        exact hz
    · rw [if_neg hn, if_neg hn, lift_bind]
      refine bind_congr' fun r => ?_
      exact reduceLoopE_pure trans op v _ _ _

/-! ### The loops -/

theorem reduceLoopE_eq (ops : COps σ α τ) (v : List τ) (m i : Nat) (h : i + m = v.length) (r : τ) :
    reduceLoopE ops v m i r = invoke (accumulate ops.val r (v.drop i)) := by
  induction m generalizing i r with
  | zero => rw [List.drop_eq_nil_of_le (by omega)]; rfl
  | succ m ih =>
    have hi : i < v.length := by omega
    unfold reduceLoopE
    rw [at'_eq hi, List.drop_eq_getElem_cons hi]
    simp only [lift_ok, pure_bind']
    funext s
    rw [bind_def]
    simp only [invoke, accumulate]
    rcases h' : ops.val s r v[i] with ⟨s', _ | r'⟩
    · rfl
    · exact congrFun (ih (i + 1) (by omega) r') s'

theorem reduceMaskedLoopE_eq (ops : COps σ α τ) (k : List Bool) (v : List τ) (m i : Nat) (h : i + m = v.length)
    (hk : k.length = v.length) (r : τ) :
    reduceMaskedLoopE ops k v m i r = invoke (accumulate ops.val r (selected (k.drop i) (v.drop i))) := by
  induction m generalizing i r with
  | zero => rw [show v.drop i = [] from List.drop_eq_nil_of_le (by omega)]; simp only [selected, List.zip_nil_right]; rfl
  | succ m ih =>
    have hi : i < v.length := by omega
    have hi' : i < k.length := by omega
    unfold reduceMaskedLoopE
    rw [at'_eq hi, at'_eq hi', List.drop_eq_getElem_cons hi, List.drop_eq_getElem_cons hi']
    simp only [lift_ok, pure_bind']
    cases hki : k[i] with
    | false =>
      simp only [Bool.false_eq_true, if_false]
      rw [ih (i + 1) (by omega) r]
      rfl
    | true =>
      simp only [if_true]
      funext s
      rw [bind_def]
      have hsel : selected (true :: k.drop (i + 1)) (v[i] :: v.drop (i + 1)) = v[i] :: selected (k.drop (i + 1)) (v.drop (i + 1)) := rfl
      rw [hsel]
      simp only [invoke, accumulate]
      rcases h' : ops.val s r v[i] with ⟨s', _ | r'⟩
      · rfl
      · exact congrFun (ih (i + 1) (by omega) r') s'

end Simd

namespace TransformReduce
open Eff Simd

variable {σ α τ : Type}

theorem transformedBy_append (i : Nat) (a b : List (CEvent α τ)) :
    transformedBy i (a ++ b) = transformedBy i a ++ transformedBy i b := by
  induction a with
  | nil => rfl
  | cons x a ih => cases x <;> simp [transformedBy, ih]

theorem pairsCombined_append (a b : List (CEvent α τ)) : pairsCombined (a ++ b) = pairsCombined a + pairsCombined b := by
  induction a with
  | nil => simp [pairsCombined]
  | cons x a ih => cases x <;> simp only [List.cons_append, pairsCombined, ih] <;> omega

/-- After the elements before `p` have been passed to `transform_op`; `u` of them are still to be combined. -/
def CLogAt (t : TEnv) (mem : List α) (p u : Nat) (s : σ × List (CEvent α τ)) : Prop :=
  p ≤ t.n ∧ (∀ ev ∈ s.2, ev.threw = false) ∧ (∀ ev ∈ s.2, CShapeOk t.e.size t.ins.length ev) ∧ pairsCombined s.2 + u = p ∧
    ∀ i (_ : i < t.ins.length), transformedBy i s.2 = slice mem t.ins[i] p

/-- After an exception. -/
def CLogEnd (t : TEnv) (mem : List α) (s : σ × List (CEvent α τ)) : Prop :=
  ∃ log last, s.2 = log ++ [last] ∧ (∀ ev ∈ log, ev.threw = false) ∧ last.threw = true ∧
    (∀ ev ∈ s.2, CShapeOk t.e.size t.ins.length ev) ∧ pairsCombined s.2 ≤ t.n ∧
    ∀ i (_ : i < t.ins.length), ∃ q, q ≤ t.n ∧ transformedBy i s.2 = slice mem t.ins[i] q

/-- A call that loads `w` elements. -/
theorem loggedC_call {A : Type} {t : TEnv} {mem : List α} {p u v w : Nat} {Q : A → Prop} (hpn : p + w ≤ t.n)
    (f : σ → σ × Option A) (ev : Option A → CEvent α τ)
    (h1 : ∀ r, CShapeOk t.e.size t.ins.length (ev r)) (h2 : ∀ r, (ev r).threw = r.isNone)
    (h3 : ∀ r i (_ : i < t.ins.length), transformedBy i [ev r] = slice mem (t.ins[i] + p) w)
    (h4 : ∀ r, pairsCombined [ev r] + u = v + w) (hQ : ∀ s r, (f s).2 = some r → Q r) :
    Tri (CLogAt t mem) (CLogEnd t mem) (fun _ => False) p v (p + w) u Q
      (invoke fun s : σ × List (CEvent α τ) => (((f s.1).1, s.2 ++ [ev (f s.1).2]), (f s.1).2)) := by
  rintro ⟨s, log⟩ ⟨_, g1, g2, g4, g3⟩
  simp only at g1 g2 g3 g4
  have hc : ∀ r, pairsCombined (log ++ [ev r]) + u = p + w := by
    intro r
    have := h4 r
    rw [pairsCombined_append]; omega
  have hsh : ∀ e ∈ log ++ [ev (f s).2], CShapeOk t.e.size t.ins.length e := by
    intro e he
    rcases List.mem_append.1 he with he | he
    · exact g2 e he
    · rw [List.mem_singleton.1 he]; exact h1 _
  have hargs : ∀ i (_ : i < t.ins.length), transformedBy i (log ++ [ev (f s).2]) = slice mem t.ins[i] (p + w) := by
    intro i hi
    rw [transformedBy_append, h3 _ i hi, g3 i hi, slice_grow]
  cases hr : (f s).2 with
  | none =>
    right; left
    rw [hr] at hsh hargs
    refine ⟨((f s).1, log ++ [ev none]), by simp [invoke, hr], log, ev none, rfl, g1, by rw [h2]; rfl, hsh,
      by have := hc none; simp only; omega, ?_⟩
    exact fun i hi => ⟨p + w, hpn, hargs i hi⟩
  | some a =>
    left
    rw [hr] at hsh hargs
    refine ⟨((f s).1, log ++ [ev (some a)]), a, by simp [invoke, hr], ⟨hpn, ?_, hsh, hc _, hargs⟩, hQ s a hr⟩
    intro e he
    rcases List.mem_append.1 he with he | he
    · exact g1 e he
    · rw [List.mem_singleton.1 he, h2]; rfl

theorem weakC {A : Type} {t : TEnv} {mem : List α} {p v q u : Nat} {Q : A → Prop} {m : Eff (σ × List (CEvent α τ)) A}
    (h : p ≤ t.n → Tri (CLogAt t mem) (CLogEnd t mem) (fun _ => False) p v q u Q m) :
    Tri (CLogAt t mem) (CLogEnd t mem) (fun _ => False) p v q u Q m :=
  fun s hs => h hs.1 s hs

theorem loggedC_red (t : TEnv) (mem : List α) (ops : COps σ α τ) (p u : Nat) (x y : List τ) (hxy : x.length = y.length) (hx : x ≠ []) :
    Tri (CLogAt t mem) (CLogEnd t mem) (fun _ => False) p (u + x.length) p u (fun v => v.length = x.length)
      (invoke fun s => (loggedC ops).vec s x y) :=
  weakC fun hpn => loggedC_call (w := 0) hpn (fun s => ops.vec s x y) (fun r => .vec x y r) (fun _ => ⟨hxy, hx⟩) (fun _ => rfl)
    (fun _ _ _ => by simp [transformedBy, slice]) (fun _ => by simp [pairsCombined]; omega) (fun s r h => ops.vecShape s x y r hxy h)

theorem loggedC_cprims (t : TEnv) (mem : List α) (ops : COps σ α τ) : CPrims (CLogAt t mem) (CLogEnd t mem) (loggedC ops) := by
  refine ⟨?_, ?_⟩
  · intro p u x y hxy hx
    obtain ⟨k, hk⟩ := hx
    exact loggedC_red t mem ops p (u + 1) x y hxy (ne_nil_of_length hk (Nat.two_pow_pos _))
  · intro p u x y
    exact weakC fun hpn => loggedC_call (w := 0) hpn (fun s => ops.val s x y) (fun r => .val x y r) (fun _ => trivial) (fun _ => rfl)
      (fun _ _ _ => by simp [transformedBy, slice]) (fun _ => by simp [pairsCombined]; omega) (fun _ _ _ => trivial)

theorem loggedC_prims {t : TEnv} {mem : List α} (ok : InsOk t mem) (h64 : t.e.size < 2 ^ 64) (ops : COps σ α τ) (rev : Nat → Bool) :
    Prims (CLogAt t mem) (CLogEnd t mem) (fun _ => False) t ((loggedC ops).toROps rev)
      (loadInvokeE t ((loggedC ops).toROps rev) mem) := by
  have cp := loggedC_cprims t mem ops
  have hred : ∀ p u (v : List τ), v ≠ [] → v.length ≤ t.e.size →
      Tri (CLogAt t mem) (CLogEnd t mem) (fun _ => False) p (u + v.length) p (u + 1) (fun _ => True)
        (invoke fun s => ((loggedC ops).toROps rev).hredT s v) := by
    intro p u v hv hs s hI
    have h := reduceE_tri cp rev p u v.length v hv (Nat.le_refl _) (by omega) s hI
    simp only [invoke, COps.toROps]
    unfold reduceCalls
    rcases h with ⟨s', a, h1, h2⟩ | ⟨s', h1, h2⟩ | ⟨r, h1, h2⟩
    · exact Or.inl ⟨s', a, by rw [h1], h2⟩
    · exact Or.inr (Or.inl ⟨s', by rw [h1], h2⟩)
    · exact h2.elim
  refine ⟨?_, loggedC_red t mem ops, hred, hred⟩
  intro aligned p w hal hle hw u
  rw [loadInvokeE_eq ok _ hal hle]
  have hlen : ∀ a ∈ t.ins.map (fun a => slice mem (a + p) w), a.length = w := by
    intro a ha
    obtain ⟨b, hb, rfl⟩ := List.mem_map.1 ha
    have := ok.ins_le b hb
    simp only [slice, List.length_take, List.length_drop]; omega
  have hne : t.ins.map (fun a => slice mem (a + p) w) ≠ [] := by simpa using ok.ins_ne
  exact loggedC_call hle (fun s => ops.trans s (t.ins.map fun a => slice mem (a + p) w)) (fun r => .trans _ r)
    (fun _ => ⟨by simp, w, hw, hlen⟩) (fun _ => rfl)
    (fun _ i hi => by simp [transformedBy, hi]) (fun _ => by simp [pairsCombined])
    (fun s r h => ops.transShape s w _ r hne hlen h)

end TransformReduce
end Vir
