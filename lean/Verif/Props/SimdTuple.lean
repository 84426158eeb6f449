import Verif.Spec.SimdTuple
import Verif.Lemmas.Simd

/-!
# C66: values of simdized structs
-/

namespace Vir.SimdTuple
open Flat Simd Spec

variable {α β : Type}

private theorem constructLeaf_spec (n : Nat) (f : β → α) (x : Arg β) (h : ∀ v, x = .vec v → v.length = n) :
    ∃ v, constructLeaf n f x = .ok v ∧ v.length = n ∧
      ∀ i (_ : i < v.length), match x with
        | .scalar b => v[i] = f b
        | .vec u => ∃ b, u[i]? = some b ∧ v[i] = f b := by
  cases x with
  | scalar b =>
    refine ⟨(List.range n).map fun _ => f b, gen_eq n _ _ (fun _ _ => rfl), by simp, ?_⟩
    intro i hi
    simp
  | vec u =>
    have hu := h u rfl
    refine ⟨u.map f, ?_, by simpa using hu, ?_⟩
    · rw [constructLeaf, if_pos hu]
      refine gen_list (by simpa using hu) ?_
      intro j a hj
      obtain ⟨b, hb, rfl⟩ := by simpa using hj
      simp [at', hb]
    · intro i hi
      have hi' : i < u.length := by simpa using hi
      exact ⟨u[i], by simp [hi'], by simp⟩

mutual
private theorem construct_aux (n : Nat) : ∀ (ty : Agg (β → α)) (init : Agg (Arg β)), InitFits n ty init →
    ∃ v, construct n ty init = .ok v ∧ Wide n v ∧ ∀ i, i < n → ∃ s, subscript i v = .ok s ∧ LaneIs i ty init s
  | .leaf f, .leaf x, h => by
    obtain ⟨v, h1, h2, h3⟩ := constructLeaf_spec n f x (by rintro v rfl; simpa [InitFits] using h)
    refine ⟨.leaf v, by rw [construct, h1]; rfl, by simpa [Wide] using h2, ?_⟩
    intro i hi
    have hv : i < v.length := by omega
    refine ⟨.leaf v[i], by rw [subscript, at'_eq hv]; rfl, ?_⟩
    have := h3 i hv
    cases x <;> simpa [LaneIs] using this
  | .node ts, .node is, h => by
    obtain ⟨vs, h1, h2, h3⟩ := constructL_aux n ts is (by simpa [InitFits] using h)
    refine ⟨.node vs, by rw [construct, h1]; rfl, by simpa [Wide] using h2, ?_⟩
    intro i hi
    obtain ⟨as, h4, h5⟩ := h3 i hi
    exact ⟨.node as, by rw [subscript, h4]; rfl, by simpa [LaneIs] using h5⟩
  | .leaf _, .node _, h => by simp [InitFits] at h
  | .node _, .leaf _, h => by simp [InitFits] at h
private theorem constructL_aux (n : Nat) : ∀ (tys : List (Agg (β → α))) (inits : List (Agg (Arg β))), InitFitsL n tys inits →
    ∃ vs, constructL n tys inits = .ok vs ∧ WideL n vs ∧ ∀ i, i < n → ∃ as, subscriptL i vs = .ok as ∧ LaneIsL i tys inits as
  | [], [], _ => ⟨[], rfl, by simp [WideL], fun i _ => ⟨[], rfl, by simp [LaneIsL]⟩⟩
  | t :: ts, x :: xs, h => by
    simp only [InitFitsL] at h
    obtain ⟨v, h1, h2, h3⟩ := construct_aux n t x h.1
    obtain ⟨vs, h4, h5, h6⟩ := constructL_aux n ts xs h.2
    refine ⟨v :: vs, by rw [constructL, h1, h4]; rfl, by simp only [WideL]; exact ⟨h2, h5⟩, ?_⟩
    intro i hi
    obtain ⟨a, g1, g2⟩ := h3 i hi
    obtain ⟨as, g3, g4⟩ := h6 i hi
    exact ⟨a :: as, by rw [subscriptL, g1, g3]; rfl, by simp only [LaneIsL]; exact ⟨g2, g4⟩⟩
  | [], _ :: _, h => by simp [InitFitsL] at h
  | _ :: _, [], h => by simp [InitFitsL] at h
end

/-- **C66.** A simdized struct constructed from a struct of scalars and simds (or from one argument per member) has in lane `i` the
scalars and lane `i` of the simds, at any depth of nesting. -/
theorem construct_spec (n : Nat) (ty : Agg (β → α)) (init : Agg (Arg β)) (h : InitFits n ty init) :
    ∃ v, construct n ty init = .ok v ∧ Wide n v ∧ ∀ i, i < n → ∃ s, subscript i v = .ok s ∧ LaneIs i ty init s :=
  construct_aux n ty init h

mutual
private theorem construct_bad (n : Nat) : ∀ (ty : Agg (β → α)) (init : Agg (Arg β)), ¬ InitFits n ty init →
    construct n ty init = .ub .staticAssert
  | .leaf f, .leaf (.scalar b), h => by simp [InitFits] at h
  | .leaf f, .leaf (.vec v), h => by
    rw [construct, constructLeaf, if_neg (by simpa [InitFits] using h)]; rfl
  | .node ts, .node is, h => by
    rw [construct, constructL_bad n ts is (by simpa [InitFits] using h)]; rfl
  | .leaf _, .node _, _ => by rw [construct] <;> simp
  | .node _, .leaf _, _ => by rw [construct] <;> simp
private theorem constructL_bad (n : Nat) : ∀ (tys : List (Agg (β → α))) (inits : List (Agg (Arg β))), ¬ InitFitsL n tys inits →
    constructL n tys inits = .ub .staticAssert
  | [], [], h => by simp [InitFitsL] at h
  | t :: ts, x :: xs, h => by
    by_cases h1 : InitFits n t x
    · obtain ⟨v, h2, _⟩ := construct_spec n t x h1
      have h3 : ¬ InitFitsL n ts xs := fun h3 => h (by simp only [InitFitsL]; exact ⟨h1, h3⟩)
      rw [constructL, h2, constructL_bad n ts xs h3]; rfl
    · rw [constructL, construct_bad n t x h1]; rfl
  | [], _ :: _, _ => by rw [constructL] <;> simp
  | _ :: _, [], _ => by rw [constructL] <;> simp
end

/-- **C66.** No other initialiser is accepted. -/
theorem construct_iff (n : Nat) (ty : Agg (β → α)) (init : Agg (Arg β)) :
    (∃ v, construct n ty init = .ok v) ↔ InitFits n ty init := by
  constructor
  · rintro ⟨v, hv⟩
    refine Classical.byContradiction fun h => ?_
    rw [construct_bad n ty init h] at hv
    cases hv
  · intro h
    obtain ⟨v, h1, _⟩ := construct_spec n ty init h
    exact ⟨v, h1⟩

mutual
private theorem roundtrip_aux (n : Nat) : ∀ v : Agg (List α), Wide n v → construct n (sameTy v) (toStruct v) = .ok v
  | .leaf l, h => by
    have hl : l.length = n := by simpa [Wide] using h
    rw [sameTy, toStruct, construct, constructLeaf, if_pos hl]
    have : gen n (fun i => (do let b ← at' l i; .ok (id b) : Outcome α)) = .ok l := by
      refine gen_list hl ?_
      intro j a hj
      simp [at', hj]
    rw [this]; rfl
  | .node vs, h => by
    rw [sameTy, toStruct, construct, roundtripL_aux n vs (by simpa [Wide] using h)]; rfl
private theorem roundtripL_aux (n : Nat) : ∀ vs : List (Agg (List α)), WideL n vs →
    constructL n (sameTyL vs) (toStruct.go vs) = .ok vs
  | [], _ => rfl
  | v :: vs, h => by
    simp only [WideL] at h
    rw [sameTyL, toStruct.go, constructL, roundtrip_aux n v h.1, roundtripL_aux n vs h.2]; rfl
end

/-- **C66.** Converting a simdized struct to a struct of simds and back restores it. -/
theorem construct_toStruct (n : Nat) (v : Agg (List α)) (h : Wide n v) : construct n (sameTy v) (toStruct v) = .ok v :=
  roundtrip_aux n v h

private theorem subscriptL_get (i : Nat) : ∀ (vs : List (Agg (List α))) (as : List (Agg α)) (k : Nat) (v : Agg (List α)),
    subscriptL i vs = .ok as → vs[k]? = some v → ∃ a, as[k]? = some a ∧ subscript i v = .ok a
  | [], _, _, _, _, h => by simp at h
  | w :: ws, as, k, v, h, hk => by
    rw [subscriptL] at h
    cases hw : subscript i w with
    | ub r => rw [hw] at h; cases h
    | trap => rw [hw] at h; cases h
    | ok a =>
      cases hws : subscriptL i ws with
      | ub r => rw [hw, hws] at h; cases h
      | trap => rw [hw, hws] at h; cases h
      | ok bs =>
        rw [hw, hws] at h
        simp only [Outcome.bind_ok, Outcome.ok.injEq] at h
        subst h
        cases k with
        | zero =>
          simp only [List.getElem?_cons_zero, Option.some.injEq] at hk
          subst hk
          exact ⟨a, rfl, hw⟩
        | succ k => simpa using subscriptL_get i ws bs k v hws (by simpa using hk)

/-- **C66.** `get<k>(x)[i]` is member `k` of `x[i]`. -/
theorem getMember_subscript (i k : Nat) (v m : Agg (List α)) (s : Agg α) (hs : subscript i v = .ok s) (hm : getMember k v = .ok m) :
    ∃ as a, s = .node as ∧ as[k]? = some a ∧ subscript i m = .ok a := by
  cases v with
  | leaf l => simp [getMember] at hm
  | node vs =>
    rw [getMember] at hm
    cases hk : vs[k]? with
    | none => rw [hk] at hm; simp at hm
    | some w =>
      rw [hk] at hm
      simp only [Outcome.ok.injEq] at hm
      subst hm
      rw [subscript] at hs
      cases hv : subscriptL i vs with
      | ub r => rw [hv] at hs; cases hs
      | trap => rw [hv] at hs; cases hs
      | ok as =>
        rw [hv] at hs
        simp only [Outcome.bind_ok, Outcome.ok.injEq] at hs
        obtain ⟨a, h1, h2⟩ := subscriptL_get i vs as k w hv hk
        exact ⟨as, a, hs.symm, h1, h2⟩

mutual
private theorem subscript_ok (n i : Nat) (hi : i < n) : ∀ v : Agg (List α), Wide n v → ∃ s, subscript i v = .ok s
  | .leaf l, h => ⟨.leaf (l[i]'(by simp only [Wide] at h; omega)), by
      simp only [Wide] at h; rw [subscript, at'_eq (by omega)]; rfl⟩
  | .node vs, h => by
    obtain ⟨as, h1⟩ := subscriptL_ok n i hi vs (by simpa [Wide] using h)
    exact ⟨.node as, by rw [subscript, h1]; rfl⟩
private theorem subscriptL_ok (n i : Nat) (hi : i < n) : ∀ vs : List (Agg (List α)), WideL n vs → ∃ as, subscriptL i vs = .ok as
  | [], _ => ⟨[], rfl⟩
  | v :: vs, h => by
    simp only [WideL] at h
    obtain ⟨a, h1⟩ := subscript_ok n i hi v h.1
    obtain ⟨as, h2⟩ := subscriptL_ok n i hi vs h.2
    exact ⟨a :: as, by rw [subscriptL, h1, h2]; rfl⟩
end

private theorem forUp_wr {f : Nat → Outcome (Agg α)} (mem : List (Agg α)) (off n : Nat) (h : off + n ≤ mem.length)
    (g : Nat → Agg α) (hf : ∀ i, i < n → f i = .ok (g i)) :
    ∃ m', forUp (fun i m => do let s ← f i; wr m (off + i) s) n 0 mem = .ok m' ∧ m'.length = mem.length ∧
      ∀ j, m'[j]? = if off ≤ j ∧ j < off + n then some (g (j - off)) else mem[j]? := by
  have key : ∀ c i (m : List (Agg α)), i + c = n → m.length = mem.length →
      (∀ j, m[j]? = if off ≤ j ∧ j < off + i then some (g (j - off)) else mem[j]?) →
      ∃ m', forUp (fun i m => do let s ← f i; wr m (off + i) s) c i m = .ok m' ∧ m'.length = mem.length ∧
        ∀ j, m'[j]? = if off ≤ j ∧ j < off + n then some (g (j - off)) else mem[j]? := by
    intro c
    induction c with
    | zero =>
      intro i m hic hl hm
      have : i = n := by omega
      subst this
      exact ⟨m, rfl, hl, hm⟩
    | succ c ih =>
      intro i m hic hl hm
      rw [forUp, hf i (by omega)]
      simp only [Outcome.bind_ok, wr]
      rw [if_pos (by omega), Outcome.bind_ok]
      refine ih (i + 1) _ (by omega) (by simpa using hl) ?_
      intro j
      rw [List.getElem?_set]
      by_cases hj : off + i = j
      · subst hj
        rw [if_pos rfl, if_pos (by omega), if_pos (by omega)]
        simp
      · rw [if_neg hj, hm j]
        by_cases h1 : off ≤ j ∧ j < off + i
        · rw [if_pos h1, if_pos (by omega)]
        · rw [if_neg h1, if_neg (by omega)]
  refine key n 0 mem (by omega) rfl ?_
  intro j
  rw [if_neg (by omega)]

/-- **C66.** `copy_to` stores lane `i` as struct number `i` and changes nothing else, also for nested structs. -/
theorem copyTo_spec (n : Nat) (v : Agg (List α)) (hv : Wide n v) (mem : List (Agg α)) (off : Nat) (h : off + n ≤ mem.length) :
    ∃ m', copyTo n v mem off = .ok m' ∧ m'.length = mem.length ∧
      (∀ i, i < n → ∃ s, subscript i v = .ok s ∧ m'[off + i]? = some s) ∧
      ∀ j, j < off ∨ off + n ≤ j → m'[j]? = mem[j]? := by
  have hs : ∀ i, ∃ s, i < n → subscript i v = .ok s := by
    intro i
    by_cases hi : i < n
    · obtain ⟨s, h1⟩ := subscript_ok n i hi v hv
      exact ⟨s, fun _ => h1⟩
    · exact ⟨.node [], fun h => absurd h hi⟩
  obtain ⟨g, hg⟩ := Classical.axiomOfChoice hs
  obtain ⟨m', h1, h2, h3⟩ := forUp_wr (f := fun i => subscript i v) mem off n h g hg
  refine ⟨m', h1, h2, ?_, ?_⟩
  · intro i hi
    refine ⟨g i, hg i hi, ?_⟩
    rw [h3, if_pos (by omega), Nat.add_sub_cancel_left]
  · intro j hj
    rw [h3, if_neg (by omega)]

private theorem memberAt_flat {mem : List (Agg α)} {off n k : Nat} (hm : ∀ i, i < n → ∃ s, mem[off + i]? = some s ∧ FlatStruct k s)
    (m : Nat) (hmk : m < k) : ∃ v : List α, v.length = n ∧
      (gen n (fun i => do
        let c ← memberAt mem (off + i) m
        scalarOf c)) = .ok v ∧
      ∀ i, i < n → ∃ as : List α, mem[off + i]? = some (.node (as.map .leaf)) ∧ v[i]? = as[m]? := by
  have hex : ∀ i, ∃ a : Option α, i < n → ∃ as : List α, mem[off + i]? = some (.node (as.map .leaf)) ∧ as[m]? = a ∧ a.isSome := by
    intro i
    by_cases hi : i < n
    · obtain ⟨s, h1, as, h2, h3⟩ := hm i hi
      subst h3
      exact ⟨as[m]?, fun _ => ⟨as, h1, rfl, by simp [h2, hmk]⟩⟩
    · exact ⟨none, fun h => absurd h hi⟩
  obtain ⟨a, ha⟩ := Classical.axiomOfChoice hex
  have hlist : ∃ v : List α, v.length = n ∧ ∀ i, i < n → v[i]? = a i := by
    clear hm
    have key : ∀ c, c ≤ n → ∃ v : List α, v.length = c ∧ ∀ i, i < c → v[i]? = a i := by
      intro c
      induction c with
      | zero => exact fun _ => ⟨[], rfl, by simp⟩
      | succ c ih =>
        intro hc
        obtain ⟨v, h1, h2⟩ := ih (by omega)
        obtain ⟨as, _, _, h3⟩ := ha c (by omega)
        obtain ⟨x, hx⟩ := Option.isSome_iff_exists.1 h3
        refine ⟨v ++ [x], by simp [h1], ?_⟩
        intro i hi
        by_cases hic : i < c
        · rw [List.getElem?_append_left (by omega)]; exact h2 i hic
        · have : i = c := by omega
          subst this
          rw [List.getElem?_append_right (by omega), h1]
          simp [hx]
    exact key n (Nat.le_refl n)
  obtain ⟨v, hv1, hv2⟩ := hlist
  refine ⟨v, hv1, ?_, ?_⟩
  · refine gen_list hv1 ?_
    intro j x hx
    have hj : j < n := by
      have : j < v.length := by
        refine Nat.lt_of_not_le fun h => ?_
        rw [List.getElem?_eq_none h] at hx
        cases hx
      omega
    obtain ⟨as, g1, g2, g3⟩ := ha j hj
    have hv := hv2 j hj
    rw [← g2] at hv
    have hr : rd mem (off + j) = .ok (.node (as.map .leaf)) := by simp [rd, g1]
    have hmlt : m < as.length := by
      rw [← g2] at g3
      simpa using g3
    have hc : (as.map Agg.leaf)[m]? = some (.leaf as[m]) := by simp [hmlt]
    have hveq : v[j]? = some as[m] := by rw [hv]; simp [hmlt]
    have : as[m] = x := by
      rw [hx] at hveq
      exact (Option.some.inj hveq).symm
    simp only [memberAt, hr, Outcome.bind_ok, hc, scalarOf, this]
  · intro i hi
    obtain ⟨as, g1, g2, _⟩ := ha i hi
    exact ⟨as, g1, by rw [hv2 i hi, g2]⟩

private theorem copyFrom_go {mem : List (Agg α)} {off n k : Nat} (hm : ∀ i, i < n → ∃ s, mem[off + i]? = some s ∧ FlatStruct k s) :
    ∀ (c m : Nat), m + c = k → ∃ vs, copyFrom.go n mem off c m = .ok vs ∧
      ∀ i, i < n → ∃ as : List α, mem[off + i]? = some (.node (as.map .leaf)) ∧
        subscriptL i vs = .ok ((as.drop m).map .leaf)
  | 0, m, h => by
    refine ⟨[], rfl, ?_⟩
    intro i hi
    obtain ⟨s, h1, as, h2, h3⟩ := hm i hi
    subst h3
    refine ⟨as, h1, ?_⟩
    rw [List.drop_eq_nil_of_le (by omega)]
    rfl
  | c + 1, m, h => by
    obtain ⟨v, h1, h2, h3⟩ := memberAt_flat hm m (by omega)
    obtain ⟨vs, h4, h5⟩ := copyFrom_go hm c (m + 1) (by omega)
    refine ⟨.leaf v :: vs, ?_, ?_⟩
    · rw [copyFrom.go, h2, h4]; rfl
    · intro i hi
      obtain ⟨as, g1, g2⟩ := h3 i hi
      obtain ⟨as', g3, g4⟩ := h5 i hi
      have : as' = as := by
        rw [g1] at g3
        simp only [Option.some.injEq, Agg.node.injEq] at g3
        exact (List.map_inj_right (fun _ _ h => by simpa using h) |>.1 g3).symm
      subst this
      refine ⟨as', g1, ?_⟩
      have hvi : i < v.length := by omega
      have hmlt : m < as'.length := by
        have : v[i]? ≠ none := by simp [hvi]
        rw [g2] at this
        simpa using this
      have hval : v[i] = as'[m] := by
        rw [List.getElem?_eq_getElem hvi, List.getElem?_eq_getElem hmlt] at g2
        exact Option.some.inj g2
      rw [subscriptL, subscript, at'_eq hvi, g4, List.drop_eq_getElem_cons hmlt, hval]
      rfl

/-- **C66.** `copy_from` of a struct without nested structs: lane `i` is struct number `i`. -/
theorem copyFrom_spec (n k : Nat) (mem : List (Agg α)) (off : Nat)
    (hm : ∀ i, i < n → ∃ s, mem[off + i]? = some s ∧ FlatStruct k s) :
    ∃ v, copyFrom n (.node (List.replicate k (.leaf ()))) mem off = .ok v ∧
      ∀ i, i < n → ∃ s, mem[off + i]? = some s ∧ subscript i v = .ok s := by
  obtain ⟨vs, h1, h2⟩ := copyFrom_go hm k 0 (by omega)
  refine ⟨.node vs, by simp [copyFrom, h1], ?_⟩
  intro i hi
  obtain ⟨as, g1, g2⟩ := h2 i hi
  exact ⟨_, g1, by rw [subscript, g2]; rfl⟩

/-- **C66.** `copy_from` of a struct with a nested struct is ill-formed, although the simdized type exists and `copy_to` works. -/
theorem copyFrom_nested (n : Nat) (ts : List (Agg Unit)) (cs : List (Agg Unit)) (h : .node cs ∈ ts) (mem : List (Agg α)) (off : Nat) :
    copyFrom n (.node ts) mem off = .ub .staticAssert := by
  rw [copyFrom, if_neg]
  intro h1
  have := List.all_eq_true.1 h1 _ h
  cases this

private theorem countL_leaves : ∀ ls : List (List α), countL (ls.map Agg.leaf) = ls.length
  | [] => rfl
  | l :: ls => by
    rw [List.map_cons, countL, countL_leaves ls, count, List.length_cons]; omega

private theorem flatSubscript_go (i : Nat) (ls : List (List α)) : ∀ (k : Nat), k ≤ ls.length →
    flatSubscript.go i (.node (ls.map .leaf)) k = subscriptL i ((ls.drop (ls.length - k)).map .leaf)
  | 0, _ => by simp [flatSubscript.go, subscriptL]
  | k + 1, h => by
    have hc : count (.node (ls.map (Agg.leaf (α := List α)))) = ls.length := by rw [count, countL_leaves]
    have hlt : ls.length - (k + 1) < ls.length := by omega
    have hg : flatGet (ls.length + 1) (ls.length - (k + 1)) 0 (.node (ls.map .leaf)) =
        .ok (.leaf (ls[ls.length - (k + 1)])) := by
      rw [flatGet, hc, if_pos (by simp), if_pos rfl]
      simp [hlt]
    rw [flatSubscript.go, hc, hg, flatSubscript_go i ls k (by omega),
      List.drop_eq_getElem_cons hlt, List.map_cons, subscriptL, subscript,
      show ls.length - (k + 1) + 1 = ls.length - k by omega]
    rfl

/-- **C66.** The subscript operator of `vectorized_struct`, which goes through the flat numbering of the members, is the subscript
of every member, if all members are simds. -/
theorem flatSubscript_eq (i : Nat) (ls : List (List α)) :
    flatSubscript i (.node (ls.map .leaf)) = subscript i (.node (ls.map .leaf)) := by
  have hc : count (.node (ls.map (Agg.leaf (α := List α)))) = ls.length := by rw [count, countL_leaves]
  rw [flatSubscript, hc, flatSubscript_go i ls _ (Nat.le_refl _), Nat.sub_self, List.drop_zero, subscript]

/-- **C66.** `x op p` and `x op y`, with `p` a struct of scalars that is broadcast: lane by lane what the operator does for scalars. -/
theorem opMixed_spec (n : Nat) (ty : Agg (β → α)) (opV : Agg (List α) → Agg (List α) → Outcome (Agg (List α)))
    (op : Agg α → Agg α → Agg α) (hop : LaneWiseOp n opV op) (a : Agg (List α)) (ha : Wide n a) (b : Agg (Arg β))
    (hb : InitFits n ty b) :
    ∃ r, opMixed n ty opV a b = .ok r ∧ ∀ i, i < n → ∃ x y, subscript i a = .ok x ∧ LaneIs i ty b y ∧
      subscript i r = .ok (op x y) := by
  obtain ⟨v, h1, h2, h3⟩ := construct_spec n ty b hb
  obtain ⟨r, h4, h5⟩ := hop a v ha h2
  refine ⟨r, by rw [opMixed, h1]; exact h4, ?_⟩
  intro i hi
  obtain ⟨x, hx⟩ := subscript_ok n i hi a ha
  obtain ⟨y, hy1, hy2⟩ := h3 i hi
  exact ⟨x, y, hx, hy2, h5 i x y hi hx hy1⟩

/-! ## Concrete cases -/

/-- `struct { float x; struct { int a; int b; } p; }` with conversions that double and negate. -/
private def exTy : Agg (Nat → Int) := .node [.leaf fun x => 2 * (x : Int), .node [.leaf fun x => - (x : Int), .leaf fun x => (x : Int)]]

private def exInit : Agg (Arg Nat) := .node [.leaf (.scalar 7), .node [.leaf (.vec [1, 2, 3]), .leaf (.scalar 4)]]

example : InitFits 3 exTy exInit := by simp [exTy, exInit, InitFits, InitFitsL]

example : (do let v ← construct 3 exTy exInit; subscript 1 v) = .ok (.node [.leaf 14, .node [.leaf (-2), .leaf 4]]) := rfl

/-- a simd with a different number of lanes is rejected -/
example : construct 2 exTy exInit = .ub .staticAssert := rfl

private def exVal : Agg (List Nat) := .node [.leaf [1, 2], .node [.leaf [3, 4], .leaf [5, 6]]]

example : Wide 2 exVal := by simp [exVal, Wide, WideL]

example : copyTo 2 exVal [.leaf 0, .leaf 0, .leaf 0, .leaf 9] 1 =
    .ok [.leaf 0, .node [.leaf 1, .node [.leaf 3, .leaf 5]], .node [.leaf 2, .node [.leaf 4, .leaf 6]], .leaf 9] := rfl

example : getMember 1 exVal = .ok (.node [.leaf [3, 4], .leaf [5, 6]]) ∧
    subscript 1 exVal = .ok (.node [.leaf 2, .node [.leaf 4, .leaf 6]]) := ⟨rfl, rfl⟩

private def exMem : List (Agg Nat) := [.node [.leaf 1, .leaf 2], .node [.leaf 3, .leaf 4], .node [.leaf 5, .leaf 6]]

example : ∀ i, i < 2 → ∃ s, exMem[1 + i]? = some s ∧ FlatStruct 2 s := by
  intro i hi
  obtain rfl | rfl : i = 0 ∨ i = 1 := by omega
  · exact ⟨_, rfl, [3, 4], rfl, rfl⟩
  · exact ⟨_, rfl, [5, 6], rfl, rfl⟩

example : copyFrom 2 (.node [.leaf (), .leaf ()]) exMem 1 = .ok (.node [.leaf [3, 5], .leaf [4, 6]]) := rfl

/-- a user-defined `+` on structs of two members -/
private def exPlus : Agg (List Nat) → Agg (List Nat) → Outcome (Agg (List Nat))
  | .leaf a, .leaf b => .ok (.leaf (List.zipWith (· + ·) a b))
  | _, _ => .ok (.node [])

private def exPlus1 : Agg Nat → Agg Nat → Agg Nat
  | .leaf a, .leaf b => .leaf (a + b)
  | _, _ => .node []

example : LaneWiseOp 2 exPlus exPlus1 := by
  intro a b ha hb
  cases a with
  | leaf a =>
    cases b with
    | leaf b =>
      refine ⟨_, rfl, ?_⟩
      intro i x y hi hx hy
      simp only [Wide] at ha hb
      rw [subscript, at'_eq (by omega)] at hx hy
      simp only [Outcome.bind_ok, Outcome.ok.injEq] at hx hy
      subst hx hy
      rw [subscript, at'_eq (by simp; omega)]
      simp [exPlus1]
    | node bs =>
      refine ⟨_, rfl, ?_⟩
      intro i x y hi hx hy
      simp only [Wide] at ha
      rw [subscript, at'_eq (by omega)] at hx
      simp only [Outcome.bind_ok, Outcome.ok.injEq] at hx
      rw [subscript] at hy
      cases hb' : subscriptL i bs with
      | ok as => rw [hb'] at hy; simp only [Outcome.bind_ok, Outcome.ok.injEq] at hy; subst hx hy; rfl
      | ub r => rw [hb'] at hy; cases hy
      | trap => rw [hb'] at hy; cases hy
  | node as =>
    refine ⟨.node [], rfl, ?_⟩
    intro i x y hi hx hy
    rw [subscript] at hx
    cases ha' : subscriptL i as with
    | ok as' => rw [ha'] at hx; simp only [Outcome.bind_ok, Outcome.ok.injEq] at hx; subst hx; rfl
    | ub r => rw [ha'] at hx; cases hx
    | trap => rw [ha'] at hx; cases hx

example : opMixed 2 (.leaf (fun x : Nat => x)) exPlus (.leaf [10, 20]) (.leaf (.scalar 1)) = .ok (.leaf [11, 21]) := rfl

/-! ## The theorems applied to concrete data -/

private theorem exInit_fits : InitFits 3 exTy exInit := by simp [exTy, exInit, InitFits, InitFitsL]
private theorem exVal_wide : Wide 2 exVal := by simp [exVal, Wide, WideL]

example := construct_spec 3 exTy exInit exInit_fits
example := construct_toStruct 2 exVal exVal_wide
example := getMember_subscript 1 1 exVal _ _ rfl rfl
example := copyTo_spec 2 exVal exVal_wide [.leaf 0, .leaf 0, .leaf 0, .leaf 9] 1 (by decide)
example := copyFrom_spec 2 2 exMem 1 (by
  intro i hi
  obtain rfl | rfl : i = 0 ∨ i = 1 := by omega
  · exact ⟨_, rfl, [3, 4], rfl, rfl⟩
  · exact ⟨_, rfl, [5, 6], rfl, rfl⟩)
example := copyFrom_nested 2 [.leaf (), .node [.leaf ()]] [.leaf ()] (by simp) exMem 1

end Vir.SimdTuple
