import Verif.Lemmas.ArrayAlgorithms
import Verif.Lemmas.ThrowingTransform
import Verif.Spec.ThrowingArrays

/-! Lemmas about `transform` on arrays, with operations that have effects and may throw. -/

namespace Vir.TransformArrays
open Spec ForEach Transform Simdize ForEachStruct

variable {σ α : Type} {zero : α} {junk : Nat → α} {A : AEnv} {arrays : List (List α)}

theorem flatten_len {c : Nat} {ys : List (List α)} (h : ∀ y ∈ ys, y.length = c) : ys.flatten.length = ys.length * c := by
  induction ys with
  | nil => simp
  | cons y ys ih =>
    rw [List.flatten_cons, List.length_append, h y (by simp), ih fun z hz => h z (by simp [hz]), List.length_cons, Nat.succ_mul]
    omega

theorem flatten_member {c : Nat} {ys : List (List α)} (h : ∀ y ∈ ys, y.length = c) {i m : Nat} (hm : m < c) (hi : i < ys.length) :
    ys.flatten[i * c + m]? = (ys[i]?).bind (·[m]?) := by
  induction ys generalizing i with
  | nil => simp at hi
  | cons y ys ih =>
    have hy := h y (by simp)
    rw [List.flatten_cons]
    cases i with
    | zero => rw [List.getElem?_append_left (by omega)]; simp
    | succ i =>
      rw [List.getElem?_append_right (by rw [Nat.succ_mul]; omega), hy, Nat.succ_mul,
        show i * c + c + m - c = i * c + m by omega, ih (fun z hz => h z (by simp [hz])) (by simpa using hi)]
      simp

/-- The lanes of a load from `p` on. -/
def lanesAt (arrays : List (List α)) (I : Range) (p w : Nat) : List (List α) := reorder (I.F.env w) (structsAt arrays I p w)

@[simp] theorem structsAt_length (I : Range) (p w : Nat) : (structsAt arrays I p w).length = w := by simp [structsAt]
@[simp] theorem lanesAt_length (I : Range) (p w : Nat) : (lanesAt arrays I p w).length = w := by simp [lanesAt]

theorem loadA_lanes {I : Range} {mem : List α} (hF : I.F.WF I.c) (hm : arrays[I.arr]? = some mem) {w : Nat}
    (hw : 0 < w) {pos : Nat} (hpos : (pos + w) * I.c ≤ mem.length) :
    loadA zero junk arrays w I (pos : Int) = .ok (lanesAt arrays I pos w) := by
  have hc : contents arrays I = mem := by simp [contents, hm]
  unfold loadA ForEachStruct.load
  rw [hm]
  simp only [show ¬ (pos : Int) < 0 by omega, if_false, Int.toNat_natCast]
  have hl : (pos + (I.F.env w).n) * (I.F.env w).count ≤ mem.length := by rw [hF.width, hF.count]; exact hpos
  obtain ⟨r, h1, h2⟩ := load_members (I.F.env w) (I.F.perm w) zero junk mem pos (hF.valid w hw) hl
  rw [h1, Outcome.bind_ok]
  rw [hF.width, hF.count] at h2
  congr 1
  apply List.ext_getElem?
  intro i
  by_cases hi : i < w
  · unfold lanesAt
    rw [reorder_getElem? _ _ (by simpa using hi)]
    have hlt : (if Unordered (I.F.env w) then 3 * i % w else i) < w := by
      split
      · exact Nat.mod_lt _ hw
      · exact hi
    simp only [structsAt_length]
    simp only [lanesOf, structsAt, List.getElem?_map, List.getElem?_range hi, List.getElem?_range hlt, Option.map_some, hc]
    exact congrArg some (lane_eq h2 hi)
  · rw [List.getElem?_eq_none (by simp; omega), List.getElem?_eq_none (by simp; omega)]

/-- The arrays while the results `ys` have been written. -/
theorem overwrite_out (ok : ArraysOk A arrays) {ys : List (List α)} :
    (overwrite A arrays ys)[A.out.arr]? = some (ys.flatten ++ (contents arrays A.out).drop (ys.length * A.out.c)) := by
  obtain ⟨m, h1, _⟩ := ok.mem A.out (by simp)
  unfold overwrite
  rw [List.getElem?_set_self (List.getElem?_eq_some_iff.1 h1).1]

theorem contents_len (ok : ArraysOk A arrays) {I : Range} (hI : I ∈ A.out :: A.ins) : A.n * I.c ≤ (contents arrays I).length := by
  obtain ⟨m, h1, h2⟩ := ok.mem I hI
  simpa [contents, h1] using h2

theorem overwrite_get {ys : List (List α)} (hys : ∀ y ∈ ys, y.length = A.out.c) {j : Nat}
    (hj : ys.length * A.out.c ≤ j) :
    (ys.flatten ++ (contents arrays A.out).drop (ys.length * A.out.c))[j]? = (contents arrays A.out)[j]? := by
  have := flatten_len hys
  rw [List.getElem?_append_right (by omega), List.getElem?_drop, this]
  congr 1
  omega

theorem overwrite_len (ok : ArraysOk A arrays) {ys : List (List α)} (hys : ∀ y ∈ ys, y.length = A.out.c) (hn : ys.length ≤ A.n) :
    (ys.flatten ++ (contents arrays A.out).drop (ys.length * A.out.c)).length = (contents arrays A.out).length := by
  have h1 := flatten_len hys
  have h2 := contents_len ok (I := A.out) (by simp)
  have h3 : ys.length * A.out.c ≤ A.n * A.out.c := Nat.mul_le_mul_right _ hn
  simp only [List.length_append, h1, List.length_drop]
  omega

theorem load_overwrite (ok : ArraysOk A arrays) {ys : List (List α)} (hys : ∀ y ∈ ys, y.length = A.out.c) {q w : Nat} (hw : 0 < w)
    {I : Range} (hI : I ∈ A.ins) (hpq : ys.length ≤ q) (hq : q + w ≤ A.n) :
    loadA zero junk (overwrite A arrays ys) w I (q : Int) = .ok (lanesAt arrays I q w) := by
  have hF := ok.wf I (by simp [hI])
  obtain ⟨mem, h1, h2⟩ := ok.mem I (by simp [hI])
  have hc : contents arrays I = mem := by simp [contents, h1]
  have hle : (q + w) * I.c ≤ A.n * I.c := Nat.mul_le_mul_right _ hq
  by_cases ha : I.arr = A.out.arr
  · have hcc := ok.same I hI ha
    have hco : contents arrays A.out = mem := by rw [← hc]; simp [contents, ha]
    have ho := overwrite_out ok (ys := ys)
    rw [← ha] at ho
    rw [loadA_lanes hF ho hw (by rw [overwrite_len ok hys (by omega), hco]; omega)]
    congr 1
    unfold lanesAt
    congr 1
    unfold structsAt
    apply List.map_congr_left
    intro i _
    apply structAt_congr
    intro m _
    have hcn : contents (overwrite A arrays ys) I = ys.flatten ++ (contents arrays A.out).drop (ys.length * A.out.c) := by
      simp only [contents, List.getD_eq_getElem?_getD, ho, Option.getD_some]
    rw [hcn, overwrite_get hys, hco, hc]
    rw [← hcc]
    have : ys.length * I.c ≤ (q + i) * I.c := Nat.mul_le_mul_right _ (by omega)
    omega
  · have ho : (overwrite A arrays ys)[I.arr]? = some mem := by
      unfold overwrite
      rw [List.getElem?_set_ne (Ne.symm ha)]; exact h1
    rw [loadA_lanes hF ho hw (by omega)]
    simp only [lanesAt, structsAt, contents, List.getD_eq_getElem?_getD, ho, h1]

theorem loads_overwrite (ok : ArraysOk A arrays) {ys : List (List α)} (hys : ∀ y ∈ ys, y.length = A.out.c) {q w : Nat} (hw : 0 < w)
    (hpq : ys.length ≤ q) (hq : q + w ≤ A.n) (Is : List Range) (hIs : ∀ I ∈ Is, I ∈ A.ins) :
    loadsA zero junk (overwrite A arrays ys) w (q : Int) Is = .ok (Is.map fun I => lanesAt arrays I q w) := by
  induction Is with
  | nil => rfl
  | cons I Is ih =>
    rw [loadsA, load_overwrite ok hys hw (hIs I (by simp)) hpq hq, Outcome.bind_ok, ih fun J hJ => hIs J (by simp [hJ]), Outcome.bind_ok]
    rfl

/-- The arguments of the invocation at position `p`. -/
def laneArgs (A : AEnv) (arrays : List (List α)) (p w : Nat) : List (List (List α)) := A.ins.map fun I => lanesAt arrays I p w

theorem laneArgs_got (ok : ArraysOk A arrays) (p w : Nat) : Got A arrays p w (laneArgs A arrays p w) := by
  refine ⟨by simp [laneArgs], fun i I hI => ⟨lanesAt arrays I p w, by simp [laneArgs, hI], ?_, fun hu => ?_⟩⟩
  · have hF := ok.wf I (List.mem_cons_of_mem _ (List.mem_of_getElem? hI))
    exact reorder_perm (by rw [hF.width]; simp)
  · unfold lanesAt
    rw [reorder_ordered hu]

theorem loadArgs_overwrite (ok : ArraysOk A arrays) {ys : List (List α)} (hys : ∀ y ∈ ys, y.length = A.out.c) {q w : Nat} (hw : 0 < w)
    (hpq : ys.length ≤ q) (hq : q + w ≤ A.n) :
    loadArgsA zero junk A (overwrite A arrays ys) w (q : Int) (q : Int) = .ok (laneArgs A arrays q w) := by
  have hne := ok.ins_ne
  have key := loads_overwrite (zero := zero) (junk := junk) ok hys hw hpq hq A.ins fun _ h => h
  have : loadArgsA zero junk A (overwrite A arrays ys) w (q : Int) (q : Int) = loadsA zero junk (overwrite A arrays ys) w (q : Int) A.ins := by
    unfold loadArgsA
    cases h : A.ins with
    | nil => exact absurd h hne
    | cons I Is => simp only [loadsA]
  rw [this, key]
  rfl

theorem store_overwrite (ok : ArraysOk A arrays) {ys v : List (List α)} (hys : ∀ y ∈ ys, y.length = A.out.c)
    (hv : ∀ y ∈ v, y.length = A.out.c) {aligned : Bool} (hal : aligned = true → alignedAt A.e ys.length v.length = true)
    (hp : ys.length + v.length ≤ A.n) :
    storeA junk A aligned v.length (ys.length : Int) v (overwrite A arrays ys) = .ok (overwrite A arrays (ys ++ v)) := by
  have hF := ok.wf A.out (by simp)
  have hc0 := hF.pos
  have hlen := overwrite_len ok hys (by omega)
  have hcl := contents_len ok (I := A.out) (by simp)
  have hle : (ys.length + v.length) * A.out.c ≤ A.n * A.out.c := Nat.mul_le_mul_right _ hp
  obtain ⟨mem'', g1, g2, _, g4, g5⟩ := store_spec (A.out.F.env v.length) junk (ofLanes A.out.c v)
    (ys.flatten ++ (contents arrays A.out).drop (ys.length * A.out.c)) ys.length
    (by rw [hF.width, hF.count]; exact ofLanes_shape rfl hv) (by rw [hF.width, hF.count]; omega)
  rw [hF.width, hF.count] at g4 g5
  have hmem : mem'' = (ys ++ v).flatten ++ (contents arrays A.out).drop ((ys ++ v).length * A.out.c) := by
    have hyv : ∀ y ∈ ys ++ v, y.length = A.out.c := by
      intro y hy
      rcases List.mem_append.1 hy with h | h
      · exact hys y h
      · exact hv y h
    have l1 := flatten_len hys
    have l2 := flatten_len hyv
    rw [List.length_append] at l2
    apply List.ext_getElem?
    intro j
    by_cases h1 : j < ys.length * A.out.c
    · have : ys.length * A.out.c ≤ (ys.length + v.length) * A.out.c := Nat.mul_le_mul_right _ (by omega)
      rw [g5 j (.inl h1), List.getElem?_append_left (by omega), List.getElem?_append_left (by omega), List.flatten_append,
        List.getElem?_append_left (by omega)]
    · by_cases h2 : j < (ys.length + v.length) * A.out.c
      · have d1 : ys.length ≤ j / A.out.c := (Nat.le_div_iff_mul_le hc0).2 (by omega)
        have d2 : j / A.out.c < ys.length + v.length := (Nat.div_lt_iff_lt_mul hc0).2 h2
        have d3 := Nat.mod_lt j hc0
        have d4 := Nat.div_add_mod j A.out.c
        rw [Nat.mul_comm] at d4
        obtain ⟨x, a1, a2⟩ := g4 (j / A.out.c - ys.length) (by omega) (j % A.out.c) d3
        rw [show ys.length + (j / A.out.c - ys.length) = j / A.out.c by omega, d4] at a2
        rw [a2, ofLanes_get hv d3 a1, List.getElem?_append_left (by omega), ← d4,
          flatten_member hyv d3 (by rw [List.length_append]; exact d2), List.getElem?_append_right d1, d4]
      · rw [g5 j (.inr (by omega)), overwrite_get hys (by omega), List.getElem?_append_right (by omega), List.getElem?_drop, l2,
          List.length_append]
        congr 1
        omega
  unfold storeA ForEachStruct.store
  rw [overwrite_out ok]
  simp only
  rw [if_neg (by
    cases aligned with
    | false => simp
    | true => simp [hal rfl])]
  rw [if_neg (by omega), Int.toNat_natCast, g1, Outcome.bind_ok, hmem]
  unfold overwrite
  rw [List.set_set]

/-- The record of a complete evaluation of a group. -/
def groupLog (A : AEnv) (arrays : List (List α)) (p w : Nat) (rs : List (Nat × List (List α))) : List (OpEvent (List α)) :=
  rs.map fun r => ⟨laneArgs A arrays (p + r.1 * w) w, some r.2⟩

theorem evalGroup_overwrite (ok : ArraysOk A arrays) (op : TOp σ (List α)) (hop : ResultsOk A op) {ys : List (List α)}
    (hys : ∀ y ∈ ys, y.length = A.out.c) (p w k : Nat) (hw : 0 < w) (hy : ys.length ≤ p) (h : p + w * k ≤ A.n)
    (is : List Nat) (his : ∀ i ∈ is, i < k) (s : σ) (log : List (OpEvent (List α))) :
    (∃ s' rs, evalGroupA zero junk A (loggedOp op) (overwrite A arrays ys) w (p : Int) (p : Int) is (s, log) =
        .ok ((s', log ++ groupLog A arrays p w rs), some rs) ∧ rs.map Prod.fst = is ∧
        ∀ r ∈ rs, r.2.length = w ∧ ∀ x ∈ r.2, x.length = A.out.c) ∨
    (∃ s' rs i, evalGroupA zero junk A (loggedOp op) (overwrite A arrays ys) w (p : Int) (p : Int) is (s, log) =
        .ok ((s', log ++ (groupLog A arrays p w rs ++ [⟨laneArgs A arrays (p + i * w) w, none⟩])), none) ∧
      (rs.map Prod.fst ++ [i]) <+: is) := by
  induction is generalizing s log with
  | nil => left; exact ⟨s, [], by simp [evalGroupA, groupLog], rfl, by simp⟩
  | cons i is ih =>
    have hi : i < k := his i (by simp)
    have hb : p + i * w + w ≤ A.n := by
      have : i * w + w ≤ w * k := by
        rw [← Nat.succ_mul, Nat.mul_comm w]
        exact Nat.mul_le_mul_right _ hi
      omega
    have hl := loadArgs_overwrite (zero := zero) (junk := junk) ok hys hw (show ys.length ≤ p + i * w by omega) hb
    rw [Int.natCast_add] at hl
    have hsh := op.shape s w (laneArgs A arrays (p + i * w) w)
    have hrs := hop s (laneArgs A arrays (p + i * w) w)
    simp only [evalGroupA, hl, Outcome.bind_ok, loggedOp]
    generalize op.call s (laneArgs A arrays (p + i * w) w) = c at hsh hrs
    obtain ⟨s1, r⟩ := c
    cases r with
    | none =>
      right
      refine ⟨s1, [], i, ?_, ?_⟩
      · simp [groupLog]
      · simp
    | some v =>
      have hv := hsh v (by simpa [laneArgs] using ok.ins_ne) (by simp [laneArgs]) rfl
      rcases ih (fun j hj => his j (by simp [hj])) s1 (log ++ [⟨laneArgs A arrays (p + i * w) w, some v⟩]) with
        ⟨s', rs, h1, h2, h3⟩ | ⟨s', rs, j, h1, h2⟩
      · left
        refine ⟨s', (i, v) :: rs, ?_, by simp [h2], ?_⟩
        · dsimp only
          unfold loggedOp at h1
          rw [h1]
          simp [groupLog]
        · intro r hr
          rcases List.mem_cons.1 hr with rfl | hr
          · exact ⟨hv, hrs v rfl⟩
          · exact h3 r hr
      · right
        refine ⟨s', (i, v) :: rs, j, ?_, by simpa using h2⟩
        dsimp only
        unfold loggedOp at h1
        rw [h1]
        simp [groupLog]

theorem storeGroup_overwrite (ok : ArraysOk A arrays) (aligned : Bool) (w : Nat) (rs : List (Nat × List (List α))) (p j m : Nat)
    (ys : List (List α)) (hys : ∀ y ∈ ys, y.length = A.out.c)
    (hy : ys.length = p + j * w) (hal : aligned = true → AlignedSeq A.e ys.length (List.replicate m w)) (h : ys.length + w * m ≤ A.n)
    (hrs : ∀ i, j ≤ i → i < j + m → ∃ v, rs.lookup i = some v ∧ v.length = w ∧ ∀ x ∈ v, x.length = A.out.c) :
    storeGroupA junk A aligned w rs (p : Int) (List.range' j m) (overwrite A arrays ys) =
      .ok (overwrite A arrays (ys ++ ((List.range' j m).map fun i => (rs.lookup i).getD []).flatten)) := by
  induction m generalizing j ys with
  | zero => simp [storeGroupA]
  | succ m ih =>
    obtain ⟨v, hv, hvl, hvc⟩ := hrs j (Nat.le_refl _) (by omega)
    rw [Nat.mul_succ] at h
    have hpos : (p : Int) + ((j * w : Nat) : Int) = (ys.length : Int) := by omega
    have hst := store_overwrite (junk := junk) ok hys hvc (aligned := aligned) (fun h => by rw [hvl]; exact (hal h).1) (by omega)
    rw [hvl] at hst
    simp only [List.range'_succ, storeGroupA, hv, hpos]
    rw [hst, Outcome.bind_ok]
    rw [ih (j + 1) (ys ++ v) (fun y hy => by
        rcases List.mem_append.1 hy with h | h
        · exact hys y h
        · exact hvc y h) (by rw [List.length_append, hy, hvl, Nat.succ_mul]; omega)
      (fun h => by simpa [hvl] using (hal h).2) (by rw [List.length_append, hvl]; omega) (fun i h1 h2 => hrs i (by omega) (by omega))]
    simp [hv]

/-- The record of a group in the order of the positions. -/
def sorted (A : AEnv) (arrays : List (List α)) (p w k : Nat) (rs : List (Nat × List (List α))) : List (OpEvent (List α)) :=
  (List.range k).map fun i => ⟨laneArgs A arrays (p + i * w) w, rs.lookup i⟩

theorem groupLog_perm (p w k : Nat) (rs : List (Nat × List (List α))) (h : (rs.map Prod.fst).Perm (List.range k)) :
    (groupLog A arrays p w rs).Perm (sorted A arrays p w k rs) := by
  have hnd : (rs.map Prod.fst).Nodup := h.nodup_iff.2 List.nodup_range
  have : groupLog A arrays p w rs = (rs.map Prod.fst).map fun i => ⟨laneArgs A arrays (p + i * w) w, rs.lookup i⟩ := by
    unfold groupLog
    rw [List.map_map]
    apply List.map_congr_left
    intro r hr
    simp only [Function.comp_apply, lookup_of_mem hnd hr]
  rw [this]
  exact h.map _

theorem covers_append {p : Nat} {a b : List (OpEvent (List α))} (ha : Covers A arrays p a)
    (hb : Covers A arrays (p + (resultsOf a).length) b) : Covers A arrays p (a ++ b) := by
  induction a generalizing p with
  | nil => simpa [resultsOf] using hb
  | cons ev a ih =>
    obtain ⟨r, h1, h2, h3, h4⟩ := ha
    refine ⟨r, h1, h2, h3, ih h4 ?_⟩
    have : (resultsOf (ev :: a)).length = r.length + (resultsOf a).length := by simp [resultsOf, h1]
    rwa [this, ← Nat.add_assoc] at hb

theorem covers_results {p : Nat} {a : List (OpEvent (List α))} (ha : Covers A arrays p a) : ∀ x ∈ resultsOf a, x.length = A.out.c := by
  induction a generalizing p with
  | nil => simp [resultsOf]
  | cons ev a ih =>
    obtain ⟨r, h1, h2, h3, h4⟩ := ha
    intro x hx
    have : resultsOf (ev :: a) = r ++ resultsOf a := by simp [resultsOf, h1]
    rw [this] at hx
    rcases List.mem_append.1 hx with h | h
    · exact h2.2.2 x h
    · exact ih h4 x h

theorem covers_sorted (ok : ArraysOk A arrays) {p w : Nat} {rs : List (Nat × List (List α))} (hw : 0 < w ∧ w ≤ A.e.size) (k : Nat)
    (hlook : ∀ i, i < k → ∃ v, rs.lookup i = some v ∧ v.length = w ∧ ∀ x ∈ v, x.length = A.out.c) :
    Covers A arrays p (sorted A arrays p w k rs) ∧ (resultsOf (sorted A arrays p w k rs)).length = w * k := by
  induction k with
  | zero => simp [sorted, Covers, resultsOf]
  | succ k ih =>
    obtain ⟨h1, h2⟩ := ih fun i hi => hlook i (by omega)
    obtain ⟨v, hv, hl, hc⟩ := hlook k (by omega)
    have : sorted A arrays p w (k + 1) rs = sorted A arrays p w k rs ++ [⟨laneArgs A arrays (p + k * w) w, rs.lookup k⟩] := by
      simp [sorted, List.range_succ]
    rw [this]
    refine ⟨covers_append h1 ?_, ?_⟩
    · rw [h2, Nat.mul_comm w k]
      refine ⟨v, hv, by rw [hl]; exact ⟨hw.1, hw.2, hc⟩, ?_, trivial⟩
      rw [hl]
      exact laneArgs_got ok _ _
    · rw [resultsOf_append, List.length_append, h2, Nat.mul_succ]
      simp [resultsOf, hv, hl]

/-- One group. -/
theorem chunks_overwrite (ok : ArraysOk A arrays) (ord : Nat → List Nat) (hord : ∀ k, (ord k).Perm (List.range k)) (op : TOp σ (List α))
    (hop : ResultsOk A op) (g : Group) (hg : 0 < g.w ∧ g.w ≤ A.e.size) (s : σ) (log : List (OpEvent (List α))) (ys : List (List α))
    (hys : ∀ y ∈ ys, y.length = A.out.c)
    (hal : g.aligned = true → AlignedSeq A.e ys.length (List.replicate g.k g.w)) (h : ys.length + g.elems ≤ A.n) :
    (∃ s' log' evs, Transform.atPos (chunksTA zero junk A ord (loggedOp op)) g ys.length (.inl ((s, log), overwrite A arrays ys)) =
        .ok (.inl ((s', log ++ log'), overwrite A arrays (ys ++ resultsOf evs))) ∧ log'.Perm evs ∧
        Covers A arrays ys.length evs ∧ (resultsOf evs).length = g.elems) ∨
    (∃ s' cur last, Transform.atPos (chunksTA zero junk A ord (loggedOp op)) g ys.length (.inl ((s, log), overwrite A arrays ys)) =
        .ok (.inr ((s', log ++ (cur ++ [last])), overwrite A arrays ys)) ∧
        (∀ ev ∈ cur, ev.result.isSome) ∧ last.result = none ∧
        (∀ ev ∈ cur ++ [last], ∃ p, ys.length ≤ p ∧ p + g.w ≤ A.n ∧ Got A arrays p g.w ev.args)) := by
  have hw : ys.length + g.w * g.k ≤ A.n := h
  have hlt : ∀ i ∈ ord g.k, i < g.k := fun i hi => List.mem_range.1 ((hord g.k).mem_iff.1 hi)
  rcases evalGroup_overwrite (zero := zero) (junk := junk) ok op hop hys ys.length g.w g.k hg.1 (Nat.le_refl _) hw (ord g.k) hlt s log with
    ⟨s', rs, h1, h2, h3⟩ | ⟨s', rs, i, h1, h2⟩
  · left
    have hperm : (rs.map Prod.fst).Perm (List.range g.k) := by rw [h2]; exact hord g.k
    have hnd : (rs.map Prod.fst).Nodup := hperm.nodup_iff.2 List.nodup_range
    have hlook : ∀ i, i < g.k → ∃ v, rs.lookup i = some v ∧ v.length = g.w ∧ ∀ x ∈ v, x.length = A.out.c := by
      intro i hi
      obtain ⟨r, hr, rfl⟩ := List.mem_map.1 (hperm.mem_iff.2 (List.mem_range.2 hi))
      exact ⟨r.2, lookup_of_mem hnd hr, h3 r hr⟩
    have hres : resultsOf (sorted A arrays ys.length g.w g.k rs) = ((List.range g.k).map fun i => (rs.lookup i).getD []).flatten := by
      simp [resultsOf, sorted, Function.comp_def]
    obtain ⟨c1, c2⟩ := covers_sorted (p := ys.length) ok hg g.k hlook
    refine ⟨s', groupLog A arrays ys.length g.w rs, sorted A arrays ys.length g.w g.k rs, ?_, groupLog_perm _ _ _ _ hperm, c1, c2⟩
    unfold Transform.atPos chunksTA
    simp only [h1, Outcome.bind_ok]
    have := storeGroup_overwrite (junk := junk) ok g.aligned g.w rs ys.length 0 g.k ys hys (by simp) hal hw (fun i _ hi => hlook i (by omega))
    rw [← List.range_eq_range'] at this
    simp only [this, Outcome.bind_ok, hres]
  · right
    refine ⟨s', groupLog A arrays ys.length g.w rs, ⟨laneArgs A arrays (ys.length + i * g.w) g.w, none⟩, ?_, ?_, rfl, ?_⟩
    · unfold Transform.atPos chunksTA
      simp only [h1, Outcome.bind_ok]
    · intro ev hev
      obtain ⟨r, hr, rfl⟩ := List.mem_map.1 hev
      rfl
    · have hb : ∀ j ∈ rs.map Prod.fst ++ [i], ys.length + j * g.w + g.w ≤ A.n := by
        intro j hj
        have : j * g.w + g.w ≤ g.w * g.k := by
          rw [← Nat.succ_mul, Nat.mul_comm g.w]
          exact Nat.mul_le_mul_right _ (hlt j (h2.subset hj))
        omega
      intro ev hev
      rcases List.mem_append.1 hev with hev | hev
      · obtain ⟨r, hr, rfl⟩ := List.mem_map.1 hev
        exact ⟨ys.length + r.1 * g.w, by omega, hb _ (by simp only [List.mem_append, List.mem_map]; exact Or.inl ⟨r, hr, rfl⟩),
          laneArgs_got ok _ _⟩
      · simp only [List.mem_singleton] at hev
        subst hev
        exact ⟨ys.length + i * g.w, by omega, hb i (by simp), laneArgs_got ok _ _⟩

/-- All groups. -/
theorem groups_overwrite (ok : ArraysOk A arrays) (ord : Nat → List Nat) (hord : ∀ k, (ord k).Perm (List.range k)) (op : TOp σ (List α))
    (hop : ResultsOk A op) (gs : List Group) (hgs : ∀ g ∈ gs, 0 < g.w ∧ g.w ≤ A.e.size) (s : σ) (log : List (OpEvent (List α))) (ys : List (List α))
    (hys : ∀ y ∈ ys, y.length = A.out.c) (hal : GroupsAligned A.e ys.length gs) (h : ys.length + span gs ≤ A.n) :
    (∃ s' log' evs, runGroups (Transform.atPos (chunksTA zero junk A ord (loggedOp op))) ys.length gs (.inl ((s, log), overwrite A arrays ys)) =
        .ok (.inl ((s', log ++ log'), overwrite A arrays (ys ++ resultsOf evs))) ∧ log'.Perm evs ∧
        Covers A arrays ys.length evs ∧ (resultsOf evs).length = span gs) ∨
    (∃ s' log' evs cur last, runGroups (Transform.atPos (chunksTA zero junk A ord (loggedOp op))) ys.length gs
          (.inl ((s, log), overwrite A arrays ys)) =
        .ok (.inr ((s', log ++ (log' ++ cur ++ [last])), overwrite A arrays (ys ++ resultsOf evs))) ∧ log'.Perm evs ∧
        Covers A arrays ys.length evs ∧ (∀ ev ∈ cur, ev.result.isSome) ∧ last.result = none ∧
        (∀ ev ∈ cur ++ [last], ∃ p w, ys.length + (resultsOf evs).length ≤ p ∧ 0 < w ∧ p + w ≤ A.n ∧ Got A arrays p w ev.args)) := by
  induction gs generalizing s log ys with
  | nil =>
    left
    exact ⟨s, [], [], by simp [runGroups, resultsOf], List.Perm.refl _, trivial, by simp [resultsOf]⟩
  | cons g gs ih =>
    rw [span_cons] at h
    have hg := hgs g (by simp)
    rcases chunks_overwrite (zero := zero) (junk := junk) ok ord hord op hop g hg s log ys hys hal.1 (by omega) with
      ⟨s1, l1, e1, h1, h2, h3, h4⟩ | ⟨s1, cur, last, h1, h2, h3, h4⟩
    · have hpos : ys.length + g.elems = (ys ++ resultsOf e1).length := by rw [List.length_append, h4]
      have hal2 := hal.2
      rw [hpos] at hal2
      simp only [runGroups, h1, Outcome.bind_ok, hpos]
      rcases ih (fun g hg => hgs g (by simp [hg])) s1 (log ++ l1) (ys ++ resultsOf e1) (fun y hy => by
          rcases List.mem_append.1 hy with h | h
          · exact hys y h
          · exact covers_results h3 y h) hal2 (by omega) with
        ⟨s', l2, e2, k1, k2, k3, k4⟩ | ⟨s', l2, e2, cur, last, k1, k2, k3, k6, k7, k8⟩
      · left
        rw [← hpos, ← h4] at k3
        refine ⟨s', l1 ++ l2, e1 ++ e2, ?_, h2.append k2, covers_append h3 k3, ?_⟩
        · rw [k1, resultsOf_append]; simp
        · rw [resultsOf_append, List.length_append, h4, k4, span_cons]
      · right
        rw [← hpos, ← h4] at k3
        refine ⟨s', l1 ++ l2, e1 ++ e2, cur, last, ?_, h2.append k2, covers_append h3 k3, k6, k7, ?_⟩
        · rw [k1, resultsOf_append]; simp
        · intro ev hev
          obtain ⟨p, w, q1, q0, q2, q3⟩ := k8 ev hev
          refine ⟨p, w, ?_, q0, q2, q3⟩
          rw [resultsOf_append, List.length_append]
          rw [List.length_append] at q1
          omega
    · right
      refine ⟨s1, [], [], cur, last, ?_, List.Perm.refl _, trivial, h2, h3, ?_⟩
      · simp only [runGroups, h1, Outcome.bind_ok]
        rw [runGroups_thrown (Transform.atPos (chunksTA zero junk A ord (loggedOp op))) (fun _ _ _ => rfl)]
        simp [resultsOf]
      · intro ev hev
        obtain ⟨p, q1, q2, q3⟩ := h4 ev hev
        exact ⟨p, g.w, by simpa [resultsOf] using q1, hg.1, q2, q3⟩

end Vir.TransformArrays
