import Verif.Spec.PartialOps
import Verif.Lemmas.ThrowingTransform

/-! Lemmas about `for_each` and `transform` with operations that are undefined for some arguments. -/

namespace Vir
open Spec ForEach Transform

variable {α : Type} {P : α → Prop} {R : List α → α → Prop} {op : POp α}

/-- One invocation. -/
theorem Spec.OnEveryLane.cases {m : Nat} (h : OnEveryLane m P op R) {w : Nat} {args : List (List α)} (hne : args.length = m)
    (ha : ∀ a ∈ args, a.length = w ∧ ∀ x ∈ a, P x) :
    (∃ r, op w args = .ok r ∧ r.length = w ∧ ∀ (i : Nat) (v : α), r[i]? = some v → R (args.filterMap (·[i]?)) v) ∨
    (∃ i, i < w ∧ (∀ v, ¬ R (args.filterMap (·[i]?)) v) ∧ ∃ u, op w args = .ub u) := by
  by_cases hd : ∀ i < w, ∃ v, R (args.filterMap (·[i]?)) v
  · exact Or.inl (h.value w args hne ha hd)
  · right
    apply Classical.byContradiction
    intro hc
    refine hd fun i hi => Classical.byContradiction fun hv => hc ⟨i, hi, ?_, ?_⟩
    · exact fun v hv' => hv ⟨v, hv'⟩
    · exact h.undef w args hne ha i hi fun v hv' => hv ⟨v, hv'⟩

namespace Transform

variable {t : TEnv} {mem0 : List α}

theorem argsAt_lane {p w i : Nat} (hi : i < w) : (argsAt t mem0 p w).filterMap (·[i]?) = elementsAt t mem0 (p + i) := by
  unfold argsAt elementsAt
  rw [List.filterMap_map]
  congr 1; funext a
  simp [slice, hi, Nat.add_assoc]

theorem argsAt_has (ok : RangesOk t mem0) (hP : ∀ i < t.n, ∀ x ∈ elementsAt t mem0 i, P x) {p w : Nat} (h : p + w ≤ t.n) :
    ∀ a ∈ argsAt t mem0 p w, a.length = w ∧ ∀ x ∈ a, P x := by
  intro a ha
  refine ⟨argsAt_length ok h a ha, fun x hx => ?_⟩
  obtain ⟨i, hi, hx⟩ := List.mem_iff_getElem.1 hx
  have hiw : i < w := by rw [← argsAt_length ok h a ha]; exact hi
  refine hP (p + i) (by omega) x ?_
  rw [← argsAt_lane hiw]
  exact List.mem_filterMap.2 ⟨a, ha, by rw [← hx]; exact List.getElem?_eq_getElem hi⟩

/-- The positions from `p` on have the values `zs`. -/
def Values (R : List α → α → Prop) (t : TEnv) (mem0 : List α) (p : Nat) (zs : List α) : Prop :=
  ∀ (i : Nat) (v : α), zs[i]? = some v → R (elementsAt t mem0 (p + i)) v

theorem Values.append {p : Nat} {ys zs : List α} (h1 : Values R t mem0 p ys) (h2 : Values R t mem0 (p + ys.length) zs) :
    Values R t mem0 p (ys ++ zs) := by
  intro i v hv
  by_cases hi : i < ys.length
  · rw [List.getElem?_append_left hi] at hv; exact h1 i v hv
  · rw [List.getElem?_append_right (by omega)] at hv
    have := h2 _ v hv
    rwa [show p + ys.length + (i - ys.length) = p + i by omega] at this

theorem evalP_eq (ok : RangesOk t mem0) (hP : ∀ i < t.n, ∀ x ∈ elementsAt t mem0 i, P x) (h : OnEveryLane t.ins.length P op R) (ys : List α)
    (p w k : Nat) (hy : ys.length ≤ p) (hk : p + w * k ≤ t.n) (is : List Nat) (his : ∀ i ∈ is, i < k) :
    (∃ rs, evalP t op (writeAt mem0 t.out ys) w (p : Int) (p : Int) is = .ok rs ∧ rs.map Prod.fst = is ∧
      ∀ r ∈ rs, r.2.length = w ∧ Values R t mem0 (p + r.1 * w) r.2) ∨
    (∃ j, p ≤ j ∧ j < t.n ∧ (∀ v, ¬ R (elementsAt t mem0 j) v) ∧
      ∃ u, evalP t op (writeAt mem0 t.out ys) w (p : Int) (p : Int) is = .ub u) := by
  induction is with
  | nil => left; exact ⟨[], rfl, rfl, by simp⟩
  | cons i is ih =>
    have hi : i < k := his i (by simp)
    have hb : p + i * w + w ≤ t.n := by
      have : i * w + w ≤ w * k := by
        rw [← Nat.succ_mul, Nat.mul_comm w]
        exact Nat.mul_le_mul_right _ hi
      omega
    have hl := loadArgs_eq ok ys (p + i * w) w (by omega) hb
    rw [Int.natCast_add] at hl
    simp only [evalP, hl, Outcome.bind_ok]
    rcases h.cases (show (argsAt t mem0 (p + i * w) w).length = t.ins.length by simp [argsAt]) (argsAt_has ok hP hb) with ⟨r, h1, h2, h3⟩ | ⟨j, h1, h2, u, h3⟩
    · simp only [h1, Outcome.bind_ok]
      rcases ih (fun j hj => his j (by simp [hj])) with ⟨rs, g1, g2, g3⟩ | ⟨j, g1, g2, g3, u, g4⟩
      · left
        refine ⟨(i, r) :: rs, by simp only [g1, Outcome.bind_ok], by simp [g2], ?_⟩
        intro x hx
        rcases List.mem_cons.1 hx with rfl | hx
        · refine ⟨h2, fun j v hv => ?_⟩
          have hj : j < w := by rw [← h2]; exact (List.getElem?_eq_some_iff.1 hv).1
          rw [← argsAt_lane hj]; exact h3 j v hv
        · exact g3 x hx
      · right
        exact ⟨j, g1, g2, g3, u, by simp only [g4, Outcome.bind_ub]⟩
    · right
      refine ⟨p + i * w + j, by omega, by omega, ?_, u, by simp only [h3, Outcome.bind_ub]⟩
      rw [← argsAt_lane h1]; exact h2

theorem values_flatten {p w : Nat} (f : Nat → List α) (k : Nat) (hl : ∀ i < k, (f i).length = w ∧ Values R t mem0 (p + i * w) (f i)) :
    (((List.range k).map f).flatten).length = w * k ∧ Values R t mem0 p (((List.range k).map f).flatten) := by
  induction k with
  | zero => exact ⟨by simp, by intro i v hv; simp at hv⟩
  | succ k ih =>
    obtain ⟨h1, h2⟩ := ih fun i hi => hl i (by omega)
    obtain ⟨g1, g2⟩ := hl k (by omega)
    rw [List.range_succ, List.map_append, List.flatten_append]
    simp only [List.map_cons, List.map_nil, List.flatten_cons, List.flatten_nil, List.append_nil, List.length_append, h1, g1]
    refine ⟨by rw [Nat.mul_succ], h2.append ?_⟩
    rw [h1, Nat.mul_comm w k]; exact g2

/-- One group. -/
theorem chunksP_eq (ok : RangesOk t mem0) (hP : ∀ i < t.n, ∀ x ∈ elementsAt t mem0 i, P x) (h : OnEveryLane t.ins.length P op R)
    {ord : Nat → List Nat} (hord : ∀ k, (ord k).Perm (List.range k)) (g : Group) (ys : List α)
    (hal : g.aligned = true → AlignedSeq t.e ys.length (List.replicate g.k g.w)) (hn : ys.length + g.elems ≤ t.n) :
    (∃ zs, Transform.atPos (chunksP t ord op) g ys.length (writeAt mem0 t.out ys) = .ok (writeAt mem0 t.out (ys ++ zs)) ∧
      zs.length = g.elems ∧ Values R t mem0 ys.length zs) ∨
    (∃ j, ys.length ≤ j ∧ j < t.n ∧ (∀ v, ¬ R (elementsAt t mem0 j) v) ∧
      ∃ u, Transform.atPos (chunksP t ord op) g ys.length (writeAt mem0 t.out ys) = .ub u) := by
  have hw : ys.length + g.w * g.k ≤ t.n := hn
  have hlt : ∀ i ∈ ord g.k, i < g.k := fun i hi => List.mem_range.1 ((hord g.k).mem_iff.1 hi)
  unfold Transform.atPos chunksP
  rcases evalP_eq ok hP h ys ys.length g.w g.k (Nat.le_refl _) hw (ord g.k) hlt with ⟨rs, h1, h2, h3⟩ | ⟨j, h1, h2, h3, u, h4⟩
  · left
    have hperm : (rs.map Prod.fst).Perm (List.range g.k) := by rw [h2]; exact hord g.k
    have hnd : (rs.map Prod.fst).Nodup := hperm.nodup_iff.2 List.nodup_range
    have hlook : ∀ i, i < g.k → ∃ v, rs.lookup i = some v ∧ v.length = g.w ∧ Values R t mem0 (ys.length + i * g.w) v := by
      intro i hi
      obtain ⟨r, hr, rfl⟩ := List.mem_map.1 (hperm.mem_iff.2 (List.mem_range.2 hi))
      exact ⟨r.2, lookup_of_mem hnd hr, h3 r hr⟩
    have hst := storeGroup_eq ok g.aligned g.w rs ys.length 0 g.k ys (by simp) hal hw (fun i _ hi => by
      obtain ⟨v, q1, q2, _⟩ := hlook i (by omega)
      exact ⟨v, q1, q2⟩)
    rw [← List.range_eq_range'] at hst
    obtain ⟨q1, q2⟩ := values_flatten (R := R) (t := t) (mem0 := mem0) (p := ys.length) (w := g.w) (fun i => (rs.lookup i).getD []) g.k
      (fun i hi => by
        obtain ⟨v, q1, q2, q3⟩ := hlook i hi
        simp only [q1, Option.getD_some]; exact ⟨q2, q3⟩)
    exact ⟨_, by simp only [h1, Outcome.bind_ok, hst], q1, q2⟩
  · right
    exact ⟨j, h1, h2, h3, u, by simp only [h4, Outcome.bind_ub]⟩

/-- All groups. -/
theorem runGroups_chunksP (ok : RangesOk t mem0) (hP : ∀ i < t.n, ∀ x ∈ elementsAt t mem0 i, P x) (h : OnEveryLane t.ins.length P op R)
    {ord : Nat → List Nat} (hord : ∀ k, (ord k).Perm (List.range k)) (gs : List Group) (ys : List α)
    (hal : GroupsAligned t.e ys.length gs) (hn : ys.length + span gs ≤ t.n) (hy : Values R t mem0 0 ys) :
    (∃ zs, runGroups (Transform.atPos (chunksP t ord op)) ys.length gs (writeAt mem0 t.out ys) = .ok (writeAt mem0 t.out zs) ∧
      zs.length = ys.length + span gs ∧ Values R t mem0 0 zs) ∨
    (∃ j, j < t.n ∧ (∀ v, ¬ R (elementsAt t mem0 j) v) ∧
      ∃ u, runGroups (Transform.atPos (chunksP t ord op)) ys.length gs (writeAt mem0 t.out ys) = .ub u) := by
  induction gs generalizing ys with
  | nil => left; exact ⟨ys, rfl, by simp, hy⟩
  | cons g gs ih =>
    rw [span_cons] at hn
    rcases chunksP_eq ok hP h hord g ys hal.1 (by omega) with ⟨zs, h1, h2, h3⟩ | ⟨j, _, h2, h3, u, h4⟩
    · have hpos : ys.length + g.elems = (ys ++ zs).length := by rw [List.length_append, h2]
      have hal2 := hal.2
      rw [hpos] at hal2
      simp only [runGroups, h1, Outcome.bind_ok, hpos]
      rcases ih (ys ++ zs) hal2 (by omega) (hy.append (by rwa [Nat.zero_add])) with ⟨xs, g1, g2, g3⟩ | g
      · left
        exact ⟨xs, g1, by rw [g2, ← hpos, span_cons, Nat.add_assoc], g3⟩
      · exact Or.inr g
    · right
      exact ⟨j, h2, h3, u, by simp only [runGroups, h4, Outcome.bind_ub]⟩

end Transform

namespace ForEach

theorem related_lane {c r : List α} (hl : r.length = c.length) (h : ∀ (i : Nat) (v : α), r[i]? = some v → R ([c].filterMap (·[i]?)) v) :
    AllRelated (fun x v => R [x] v) c r := by
  refine ⟨hl, fun i x y hx hy => ?_⟩
  have := h i y hy
  simpa [List.filterMap_cons, hx] using this

theorem related_nil {Q : α → α → Prop} : AllRelated Q [] [] := ⟨rfl, by simp⟩

theorem related_append {Q : α → α → Prop} {a b c d : List α} (h1 : AllRelated Q a b) (h2 : AllRelated Q c d) :
    AllRelated Q (a ++ c) (b ++ d) := by
  refine ⟨by simp [h1.1, h2.1], fun i x y hx hy => ?_⟩
  by_cases hi : i < a.length
  · rw [List.getElem?_append_left hi] at hx
    rw [List.getElem?_append_left (by rw [h1.1]; exact hi)] at hy
    exact h1.2 i x y hx hy
  · rw [List.getElem?_append_right (by omega)] at hx
    rw [List.getElem?_append_right (by rw [h1.1]; omega), h1.1] at hy
    exact h2.2 _ x y hx hy

theorem assignAll_eq (h : OnEveryLane 1 P op R) (w : Nat) (cs : List (List α)) (hc : ∀ c ∈ cs, c.length = w ∧ ∀ x ∈ c, P x) :
    (∃ rs, assignAll op w cs = .ok rs ∧ rs.map List.length = cs.map List.length ∧
      AllRelated (fun x v => R [x] v) cs.flatten rs.flatten) ∨
    (∃ x ∈ cs.flatten, (∀ v, ¬ R [x] v) ∧ ∃ u, assignAll op w cs = .ub u) := by
  induction cs with
  | nil => left; exact ⟨[], rfl, rfl, related_nil⟩
  | cons c cs ih =>
    obtain ⟨hcw, hcP⟩ := hc c (by simp)
    simp only [assignAll]
    rcases h.cases (w := w) (args := [c]) rfl (by intro a ha; rw [List.mem_singleton.1 ha]; exact ⟨hcw, hcP⟩) with
      ⟨r, h1, h2, h3⟩ | ⟨j, h1, h2, u, h3⟩
    · simp only [h1, Outcome.bind_ok]
      rcases ih (fun c hc' => hc c (by simp [hc'])) with ⟨rs, g1, g2, g3⟩ | ⟨x, g1, g2, u, g3⟩
      · left
        refine ⟨r :: rs, by simp only [g1, Outcome.bind_ok], by simp [g2, h2, hcw], ?_⟩
        simp only [List.flatten_cons]
        exact related_append (related_lane (h2.trans hcw.symm) h3) g3
      · right
        exact ⟨x, by simp only [List.flatten_cons, List.mem_append]; exact Or.inr g1, g2, u, by simp only [g3, Outcome.bind_ub]⟩
    · right
      have hj : j < c.length := by omega
      refine ⟨c[j], by simp, ?_, u, by simp only [h3, Outcome.bind_ub]⟩
      simpa [List.filterMap_cons, List.getElem?_eq_getElem hj] using h2

theorem runGroups_invokeP {e : Env} (h : OnEveryLane 1 P op R) (gs : List Group) (outs rest : List α) (hP : ∀ x ∈ rest, P x)
    (hal : GroupsAligned e outs.length gs) (hn : span gs ≤ rest.length) :
    (∃ ys, runGroups (ForEach.atPos (invokeP e op)) outs.length gs (outs ++ rest) = .ok (outs ++ ys ++ rest.drop (span gs)) ∧
      AllRelated (fun x v => R [x] v) (rest.take (span gs)) ys) ∨
    (∃ x ∈ rest, (∀ v, ¬ R [x] v) ∧ ∃ u, runGroups (ForEach.atPos (invokeP e op)) outs.length gs (outs ++ rest) = .ub u) := by
  induction gs generalizing outs rest with
  | nil => left; exact ⟨[], by simp [runGroups], by simpa using related_nil⟩
  | cons g gs ih =>
    rw [span_cons] at hn
    have hgw : g.w * g.k ≤ rest.length := by unfold Group.elems at hn; omega
    have hld := loadAll_eq e g.aligned g.w g.k outs rest hal.1 hgw
    have hml := chunks_map_length g.w g.k rest hgw
    have hfl : (chunks g.w g.k rest).flatten = rest.take (g.w * g.k) := chunks_flatten g.w g.k rest
    have hcs : ∀ c ∈ chunks g.w g.k rest, c.length = g.w ∧ ∀ x ∈ c, P x := by
      intro c hc
      refine ⟨?_, fun x hx => hP x ?_⟩
      · have : c.length ∈ (chunks g.w g.k rest).map List.length := List.mem_map_of_mem hc
        rw [hml] at this
        exact List.eq_of_mem_replicate this
      · have : x ∈ (chunks g.w g.k rest).flatten := List.mem_flatten.2 ⟨c, hc, hx⟩
        rw [hfl] at this
        exact List.mem_of_mem_take this
    rcases assignAll_eq h g.w _ hcs with ⟨rs, h1, h2, h3⟩ | ⟨x, h1, h2, u, h3⟩
    · have hrl : rs.length = g.k := by
        have := congrArg List.length h2
        simpa using this
      rw [hfl] at h3
      have hst := storeAll_eq e g.aligned g.w rs outs rest (by rw [hrl]; exact hal.1) (by rw [h2, hml, hrl]) (by rw [hrl]; exact hgw)
      rw [hrl] at hst
      have hrf : rs.flatten.length = g.elems := by
        have := h3.1
        rw [List.length_take] at this
        unfold Group.elems; omega
      have hone : ForEach.atPos (invokeP e op) g outs.length (outs ++ rest) = .ok ((outs ++ rs.flatten) ++ rest.drop g.elems) := by
        unfold ForEach.atPos invokeP
        simp only [hld, Outcome.bind_ok, h1, hst]; rfl
      have hpos : outs.length + g.elems = (outs ++ rs.flatten).length := by rw [List.length_append, hrf]
      have hal2 := hal.2
      rw [hpos] at hal2
      simp only [runGroups, hone, Outcome.bind_ok, hpos]
      rcases ih (outs ++ rs.flatten) (rest.drop g.elems) (fun x hx => hP x (List.mem_of_mem_drop hx)) hal2 (by simp; omega) with
        ⟨ys, g1, g2⟩ | ⟨x, g1, g2, g3⟩
      · left
        refine ⟨rs.flatten ++ ys, ?_, ?_⟩
        · rw [g1, span_cons, List.drop_drop]; simp
        · rw [span_cons, List.take_add]
          exact related_append h3 g2
      · exact Or.inr ⟨x, List.mem_of_mem_drop g1, g2, g3⟩
    · right
      refine ⟨x, by rw [hfl] at h1; exact List.mem_of_mem_take h1, h2, u, ?_⟩
      simp only [runGroups]
      have : ForEach.atPos (invokeP e op) g outs.length (outs ++ rest) = .ub u := by
        unfold ForEach.atPos invokeP
        simp only [hld, Outcome.bind_ok, h3, Outcome.bind_ub]
      simp only [this, Outcome.bind_ub]

end ForEach
end Vir
