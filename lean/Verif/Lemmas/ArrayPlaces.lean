import Verif.Lemmas.ArrayAlgorithms
import Verif.Lemmas.StructPieces
import Verif.Spec.ArrayPlaces

/-! Lemmas about `transform` on arrays of structs whose loads may permute the lanes. -/

namespace Vir
open Spec ForEach Transform CountIf

/-- The widths of the loads. -/
def groupWidths (gs : List Group) : List Nat := gs.flatMap fun G => List.replicate G.k G.w

/-- Consecutive pieces of the given widths from `p` on: start and width. -/
def startsOf : Nat → List Nat → List (Nat × Nat)
  | _, [] => []
  | p, w :: ws => (p, w) :: startsOf (p + w) ws

theorem startsOf_append (p : Nat) (a b : List Nat) : startsOf p (a ++ b) = startsOf p a ++ startsOf (p + a.sum) b := by
  induction a generalizing p with
  | nil => simp [startsOf]
  | cons w a ih => simp [startsOf, ih, Nat.add_assoc]

theorem mem_startsOf_bounds {p : Nat} {ws : List Nat} {x : Nat × Nat} (h : x ∈ startsOf p ws) :
    p ≤ x.1 ∧ x.1 + x.2 ≤ p + ws.sum ∧ x.2 ∈ ws := by
  induction ws generalizing p with
  | nil => simp [startsOf] at h
  | cons w ws ih =>
    rw [startsOf, List.mem_cons] at h
    rw [List.sum_cons]
    rcases h with rfl | h
    · simp
    · have := ih h
      exact ⟨by omega, by omega, by simp [this.2.2]⟩

theorem startsOf_disjoint {p : Nat} {ws : List Nat} {x y : Nat × Nat} (hx : x ∈ startsOf p ws) (hy : y ∈ startsOf p ws) :
    x = y ∨ x.1 + x.2 ≤ y.1 ∨ y.1 + y.2 ≤ x.1 := by
  induction ws generalizing p with
  | nil => simp [startsOf] at hx
  | cons w ws ih =>
    rw [startsOf, List.mem_cons] at hx hy
    rcases hx with rfl | hx <;> rcases hy with rfl | hy
    · exact .inl rfl
    · exact .inr (.inl (mem_startsOf_bounds hy).1)
    · exact .inr (.inr (mem_startsOf_bounds hx).1)
    · exact ih hx hy

theorem mem_startsOf_replicate {p k w : Nat} {x : Nat × Nat} :
    x ∈ startsOf p (List.replicate k w) ↔ ∃ j < k, x = (p + w * j, w) := by
  induction k generalizing p with
  | zero => simp [startsOf]
  | succ k ih =>
    rw [List.replicate_succ, startsOf, List.mem_cons, ih]
    constructor
    · rintro (rfl | ⟨j, hj, rfl⟩)
      · exact ⟨0, by omega, by simp⟩
      · exact ⟨j + 1, by omega, by rw [Nat.mul_succ]; congr 1; omega⟩
    · rintro ⟨j, hj, rfl⟩
      cases j with
      | zero => left; simp
      | succ j => right; exact ⟨j, by omega, by rw [Nat.mul_succ]; congr 1; omega⟩

theorem groupWidths_sum (gs : List Group) : (groupWidths gs).sum = span gs := by
  induction gs with
  | nil => rfl
  | cons G gs ih =>
    rw [show groupWidths (G :: gs) = List.replicate G.k G.w ++ groupWidths gs by simp [groupWidths], List.sum_append, ih, span_cons]
    simp [Group.elems, Nat.mul_comm]

theorem groupWidths_groupsOf {e : Env} (hs : 0 < e.size) {n : Nat} (h0 : n ≠ 0) :
    groupWidths (groupsOf e n) = bitsAsc (proCount e n) ++
      (List.replicate ((n - proCount e n) / e.size) e.size ++ bitsDesc ((n - proCount e n) % e.size)) := by
  have hch (a : Bool) (ws : List Nat) : groupWidths (chunked a ws) = ws := by
    induction ws with
    | nil => rfl
    | cons w ws ih =>
      have : groupWidths (chunked a (w :: ws)) = w :: groupWidths (chunked a ws) := by simp [groupWidths]
      rw [this, ih]
  have hrep (m w : Nat) (a : Bool) (k : Nat) : groupWidths (List.replicate m ⟨w, a, k⟩) = List.replicate (m * k) w := by
    induction m with
    | zero => simp [groupWidths]
    | succ m ih =>
      have : groupWidths (List.replicate (m + 1) ⟨w, a, k⟩) = List.replicate k w ++ groupWidths (List.replicate m ⟨w, a, k⟩) := by
        simp [groupWidths, List.replicate_succ]
      rw [this, ih, List.replicate_append_replicate]
      congr 1; rw [Nat.succ_mul]; omega
  have happ (a b : List Group) : groupWidths (a ++ b) = groupWidths a ++ groupWidths b := by simp [groupWidths]
  unfold groupsOf
  rw [if_neg h0]
  simp only [happ, hch, hrep]
  generalize n - proCount e n = n
  congr 1
  rw [← List.append_assoc, List.replicate_append_replicate, Nat.mul_one]
  congr 2
  have hq : unrolledIters e n * (e.size * unroll e) ≤ n := by
    unfold unrolledIters; split
    · exact Nat.div_mul_le_self _ _
    · simp
  rw [show unrolledIters e n * (e.size * unroll e) = e.size * (unrolledIters e n * unroll e) by ac_rfl] at hq ⊢
  have := Nat.sub_mul_div n e.size (unrolledIters e n * unroll e)
  rw [this]
  have := (Nat.le_div_iff_mul_le hs).2 (by rw [Nat.mul_comm]; exact hq : unrolledIters e n * unroll e * e.size ≤ n)
  omega

theorem not_mem_startsOf {p : Nat} {ws : List Nat} {b w : Nat} (h : w ∉ ws) : (b, w) ∉ startsOf p ws :=
  fun hm => h (mem_startsOf_bounds hm).2.2

/-- Where the pieces of eight are, if there is no prologue. -/
theorem eight_mem_startsOf {z n b : Nat} (hz : 0 < z) :
    (b, 8) ∈ startsOf 0 (List.replicate (n / z) z ++ bitsDesc (n % z)) ↔ EightAt z n b := by
  have hr := Nat.mod_lt n hz
  have hdm := Nat.div_add_mod n z
  rw [Nat.mul_comm] at hdm
  rw [startsOf_append, List.mem_append, mem_startsOf_replicate]
  rw [show (List.replicate (n / z) z).sum = n / z * z by simp]
  simp only [Nat.zero_add, Prod.mk.injEq]
  obtain ⟨hi, lo, h1, h2, h3, n1, n2⟩ := ForEachStruct.bitsDesc_eight (n % z)
  have hepi : (b, 8) ∈ startsOf (n / z * z) (bitsDesc (n % z)) ↔ 8 ≤ n % z % 16 ∧ b = n / z * z + n % z / 16 * 16 := by
    rw [h1, startsOf_append, startsOf_append, List.mem_append, List.mem_append, h2]
    constructor
    · rintro (h | h | h)
      · exact absurd h (not_mem_startsOf n1)
      · split at h
        · rename_i h8
          simp only [startsOf, List.mem_singleton, Prod.mk.injEq] at h
          exact ⟨h8, h.1⟩
        · simp [startsOf] at h
      · exact absurd h (not_mem_startsOf n2)
    · rintro ⟨h8, rfl⟩
      right; left
      rw [if_pos h8]; simp [startsOf]
  rw [hepi]
  unfold EightAt
  constructor
  · rintro (⟨j, hj, rfl, rfl⟩ | ⟨h, rfl⟩)
    · left; omega
    · by_cases h8 : z = 8
      · subst h8; omega
      · right; omega
  · rintro (⟨rfl, h, h'⟩ | ⟨h, h', rfl⟩)
    · left; exact ⟨b / 8, by omega, by omega, rfl⟩
    · right; exact ⟨h', rfl⟩

theorem mem_startsOf_shift {p q : Nat} {ws : List Nat} {b w : Nat} :
    (b, w) ∈ startsOf (p + q) ws ↔ p ≤ b ∧ (b - p, w) ∈ startsOf q ws := by
  induction ws generalizing q with
  | nil => simp [startsOf]
  | cons v ws ih =>
    rw [startsOf, startsOf, List.mem_cons, List.mem_cons, Nat.add_assoc, ih]
    simp only [Prod.mk.injEq]
    constructor
    · rintro (⟨rfl, rfl⟩ | ⟨h1, h2⟩)
      · exact ⟨by omega, .inl ⟨by omega, rfl⟩⟩
      · exact ⟨h1, .inr h2⟩
    · rintro ⟨h1, ⟨h2, rfl⟩ | h2⟩
      · exact .inl ⟨by omega, rfl⟩
      · exact .inr ⟨h1, h2⟩

theorem ascBits_ge {n k m w : Nat} (h : w ∈ ascBits n k m) : 2 ^ k ≤ w := by
  induction m generalizing k with
  | zero => simp [ascBits] at h
  | succ m ih =>
    rw [ascBits, List.mem_append] at h
    rcases h with h | h
    · split at h
      · rw [List.mem_singleton] at h; omega
      · simp at h
    · have := ih h
      rw [Nat.pow_succ] at this; omega

theorem bitsAsc_eight (r : Nat) : ∃ lo hi, bitsAsc r = lo ++ ((if 8 ≤ r % 16 then [8] else []) ++ hi) ∧ lo.sum = r % 8 ∧ 8 ∉ lo ∧ 8 ∉ hi := by
  have hlt : r < 2 ^ (r.log2 + 1 + 4) := by
    have : r < 2 ^ (r.log2 + 1) := lt_two_pow_log2_succ r
    have h2 : 2 ^ (r.log2 + 1) ≤ 2 ^ (r.log2 + 1 + 4) := Nat.pow_le_pow_right (by omega) (by omega)
    omega
  have h3 : r.testBit 3 = decide (8 ≤ r % 16) := by
    rw [Nat.testBit_eq_decide_div_mod_eq]
    have : (r / 2 ^ 3 % 2 = 1) ↔ 8 ≤ r % 16 := by omega
    simp only [this]
  have hs : ascBits r 0 (r.log2 + 1 + 4) = ascBits r 0 3 ++ ((if 8 ≤ r % 16 then [8] else []) ++ ascBits r 4 (r.log2 + 1)) := by
    simp [ascBits, h3]
  refine ⟨ascBits r 0 3, ascBits r 4 (r.log2 + 1), by rw [← bitsAsc_eq r _ hlt, hs], ?_, ?_, fun h => ?_⟩
  · have := ascBits_sum r 0 3
    simp only [Nat.pow_zero, Nat.mod_one, Nat.zero_add] at this
    simpa using this
  · intro h
    simp only [ascBits, List.mem_append] at h
    rcases h with h | h | h | h
    · split at h <;> simp at h
    · split at h <;> simp at h
    · split at h <;> simp at h
    · simp at h
  · have := ascBits_ge h
    omega

/-- Where the pieces of eight are, with a prologue of `p` elements. -/
theorem eight_mem_startsOf_pro {z n b p : Nat} (hz : 0 < z) :
    (b, 8) ∈ startsOf 0 (bitsAsc p ++ (List.replicate ((n - p) / z) z ++ bitsDesc ((n - p) % z))) ↔ EightFrom z n p b := by
  obtain ⟨lo, hi, h1, h2, n1, n2⟩ := bitsAsc_eight p
  rw [startsOf_append, List.mem_append, bitsAsc_sum, Nat.zero_add]
  have hpro : (b, 8) ∈ startsOf 0 (bitsAsc p) ↔ 8 ≤ p % 16 ∧ b = p % 8 := by
    rw [h1, startsOf_append, startsOf_append, List.mem_append, List.mem_append, h2]
    constructor
    · rintro (h | h | h)
      · exact absurd h (not_mem_startsOf n1)
      · split at h
        · rename_i h8
          simp only [startsOf, List.mem_singleton, Prod.mk.injEq] at h
          exact ⟨h8, by omega⟩
        · simp [startsOf] at h
      · exact absurd h (not_mem_startsOf n2)
    · rintro ⟨h8, rfl⟩
      right; left
      rw [if_pos h8]; simp [startsOf]
  have := @mem_startsOf_shift p 0 (List.replicate ((n - p) / z) z ++ bitsDesc ((n - p) % z)) b 8
  rw [Nat.add_zero] at this
  rw [hpro, this, eight_mem_startsOf hz]
  rfl

/-- The prologue ends at the first aligned address. -/
theorem proCount_leadIn {e : Env} (wf : e.WF) (n : Nat) : LeadIn e (proCount e n) := by
  rcases proCount_cases e n with h | ⟨h1, h2, h3⟩
  · exact .inl h
  · obtain ⟨K, hK⟩ := proInfo wf h1
    rw [h3]
    have hlt := hK.tp_lt h2
    have hle := hK.le_size
    refine .inr ⟨by omega, hK.tp_al, fun k hk hd => ?_⟩
    have hd2 := hK.tp_al
    have := Nat.dvd_sub hd2 hd
    rw [show e.addr + toProcess e * e.sz - (e.addr + k * e.sz) = (toProcess e - k) * e.sz by rw [Nat.sub_mul]; omega, hK.al] at this
    have := Nat.le_of_dvd (by omega) (Nat.dvd_of_mul_dvd_mul_right wf.sz_pos this)
    omega

namespace TransformArrays
open Simdize

variable {α : Type} {zero : α} {junk : Nat → α}

/-- The struct in lane `i` of a load, relative to the first. -/
def laneSrc (I : Range) (w i : Nat) : Nat := if Unordered (I.F.env w) then 3 * i % w else i

theorem loadA_src {arrays : List (List α)} {I : Range} {mem : List α} (hF : I.F.WF I.c) (hm : arrays[I.arr]? = some mem) {w : Nat}
    (hw : 0 < w) {pos : Nat} (hpos : (pos + w) * I.c ≤ mem.length) :
    loadA zero junk arrays w I (pos : Int) = .ok ((List.range w).map fun i => structAt mem I.c (pos + laneSrc I w i)) := by
  unfold loadA ForEachStruct.load
  rw [hm]
  simp only [show ¬ (pos : Int) < 0 by omega, if_false, Int.toNat_natCast]
  have hl : (pos + (I.F.env w).n) * (I.F.env w).count ≤ mem.length := by rw [hF.width, hF.count]; exact hpos
  obtain ⟨r, h1, h2⟩ := load_members (I.F.env w) (I.F.perm w) zero junk mem pos (hF.valid w hw) hl
  rw [h1, Outcome.bind_ok]
  rw [hF.width, hF.count] at h2
  congr 1
  unfold lanesOf
  apply List.map_congr_left
  intro i hi
  exact lane_eq h2 (List.mem_range.1 hi)

variable {A : AEnv} {arrays : List (List α)}

/-- `arrays'` is `arrays` with the first `p` elements of the output replaced by `res`. -/
structure WrittenAs (A : AEnv) (arrays : List (List α)) (res : Nat → List α) (p : Nat) (arrays' : List (List α)) : Prop where
  len : arrays'.length = arrays.length
  other : ∀ k, k ≠ A.out.arr → arrays'[k]? = arrays[k]?
  out : ∃ mem mem', arrays[A.out.arr]? = some mem ∧ arrays'[A.out.arr]? = some mem' ∧ mem'.length = mem.length ∧
    (∀ i < p, structAt mem' A.out.c i = res i) ∧ ∀ j, p * A.out.c ≤ j → mem'[j]? = mem[j]?

variable {g : List (List α) → List α} {res : Nat → List α}

/-- `res` is what a load of width `w` at `q` gives. -/
def Compat (A : AEnv) (arrays : List (List α)) (g : List (List α) → List α) (res : Nat → List α) (q w : Nat) : Prop :=
  ∀ i < w, g (A.ins.map fun I => structAt (contents arrays I) I.c (q + laneSrc I w i)) = res (q + i)

theorem as_zero (ok : ArraysOk A arrays) : WrittenAs A arrays res 0 arrays := by
  obtain ⟨mem, h1, h2⟩ := ok.mem A.out (by simp)
  exact ⟨rfl, fun _ _ => rfl, mem, mem, h1, h1, rfl, fun _ h => by omega, fun _ _ => rfl⟩

theorem load_as (ok : ArraysOk A arrays) {p q w : Nat} {st : List (List α)} (hU : WrittenAs A arrays res p st) (hw : 0 < w) {I : Range} (hI : I ∈ A.ins)
    (hpq : p ≤ q) (hq : q + w ≤ A.n) :
    loadA zero junk st w I (q : Int) = .ok ((List.range w).map fun i => structAt (contents arrays I) I.c (q + laneSrc I w i)) := by
  have hF := ok.wf I (by simp [hI])
  obtain ⟨mem, h1, h2⟩ := ok.mem I (by simp [hI])
  have hc : contents arrays I = mem := by simp [contents, h1]
  have hle : (q + w) * I.c ≤ A.n * I.c := Nat.mul_le_mul_right _ hq
  by_cases ha : I.arr = A.out.arr
  · obtain ⟨m0, mem', e1, e2, e3, _, e5⟩ := hU.out
    have hcc := ok.same I hI ha
    have : mem = m0 := by rw [ha, e1] at h1; exact (Option.some.inj h1).symm
    subst this
    rw [loadA_src hF (by rw [ha]; exact e2) hw (by omega), hc]
    congr 1
    apply List.map_congr_left
    intro i _
    apply structAt_congr
    intro m _
    apply e5
    rw [← hcc]
    have : p * I.c ≤ (q + laneSrc I w i) * I.c := Nat.mul_le_mul_right _ (by omega)
    omega
  · rw [loadA_src hF (by rw [hU.other _ ha]; exact h1) hw (by omega), hc]

theorem loads_as (ok : ArraysOk A arrays) {p q w : Nat} {st : List (List α)} (hU : WrittenAs A arrays res p st) (hw : 0 < w)
    (hpq : p ≤ q) (hq : q + w ≤ A.n) (Is : List Range) (hIs : ∀ I ∈ Is, I ∈ A.ins) :
    loadsA zero junk st w (q : Int) Is =
      .ok (Is.map fun I => (List.range w).map fun i => structAt (contents arrays I) I.c (q + laneSrc I w i)) := by
  induction Is with
  | nil => rfl
  | cons I Is ih =>
    have hI := hIs I (by simp)
    rw [loadsA, load_as ok hU hw hI hpq hq, Outcome.bind_ok, ih fun J hJ => hIs J (by simp [hJ]), Outcome.bind_ok]
    rfl

theorem invoke_as (ok : ArraysOk A arrays) {op : VecOp (List α) (List α)} (hop : LaneWise op g) {p q w : Nat} {st : List (List α)}
    (hU : WrittenAs A arrays res p st) (hw : 0 < w) (hc : Compat A arrays g res q w) (hpq : p ≤ q) (hq : q + w ≤ A.n) :
    loadAndInvokeA zero junk A op st w (q : Int) (q : Int) = .ok ((List.range w).map fun i => res (q + i)) := by
  have key := loads_as (zero := zero) (junk := junk) ok hU hw hpq hq A.ins fun _ h => h
  have hne := ok.ins_ne
  have : loadAndInvokeA zero junk A op st w (q : Int) (q : Int) =
      (loadsA zero junk st w (q : Int) A.ins >>= fun args => .ok (op.call args)) := by
    unfold loadAndInvokeA
    cases h : A.ins with
    | nil => exact absurd h hne
    | cons I Is => simp only [loadsA, Outcome.bind_assoc, Outcome.bind_ok]
  rw [this, key, Outcome.bind_ok, hop w _ (by simpa using hne) (by
    intro a ha
    simp only [List.mem_map] at ha
    obtain ⟨I, _, rfl⟩ := ha
    simp)]
  congr 1
  apply List.map_congr_left
  intro i hi
  rw [filterMap_range_map (List.mem_range.1 hi)]
  exact hc i (List.mem_range.1 hi)

theorem eval_as (ok : ArraysOk A arrays) {op : VecOp (List α) (List α)} (hop : LaneWise op g) {p w : Nat} {st : List (List α)}
    (hU : WrittenAs A arrays res p st) (hw : 0 < w) (k q : Nat) (hc : ∀ j < k, Compat A arrays g res (q + w * j) w) (hpq : p ≤ q)
    (hq : q + w * k ≤ A.n) :
    evalA zero junk A op st w k (q : Int) (q : Int) =
      .ok ((List.range k).map fun j => (List.range w).map fun i => res (q + w * j + i)) := by
  induction k generalizing q with
  | zero => rfl
  | succ k ih =>
    rw [Nat.mul_succ] at hq
    rw [evalA, invoke_as ok hop hU hw (by simpa using hc 0 (by omega)) hpq (by omega), Outcome.bind_ok]
    have e : (q : Int) + (w : Int) = ((q + w : Nat) : Int) := by omega
    rw [e, ih (q + w) (fun j hj => by have := hc (j + 1) (by omega); rwa [Nat.mul_succ, Nat.add_comm (w * j), ← Nat.add_assoc] at this) (by omega) (by omega), Outcome.bind_ok, List.range_succ_eq_map, List.map_cons, List.map_map]
    congr 2
    apply List.map_congr_left
    intro j _
    apply List.map_congr_left
    intro i _
    congr 1
    rw [Nat.mul_succ]; omega

theorem store_as (ok : ArraysOk A arrays) (hres : ∀ i < A.n, (res i).length = A.out.c) {p w : Nat} {st : List (List α)}
    (hU : WrittenAs A arrays res p st) (hw : 0 < w) {aligned : Bool} (hal : aligned = true → alignedAt A.e p w = true) (hp : p + w ≤ A.n) :
    ∃ st', storeA junk A aligned w (p : Int) ((List.range w).map fun i => res (p + i)) st = .ok st' ∧
      WrittenAs A arrays res (p + w) st' := by
  obtain ⟨mem, mem', e1, e2, e3, e4, e5⟩ := hU.out
  obtain ⟨m0, h1, h2⟩ := ok.mem A.out (by simp)
  have : m0 = mem := by rw [e1] at h1; exact (Option.some.inj h1).symm
  subst this
  have hF := ok.wf A.out (by simp)
  have hle : (p + w) * A.out.c ≤ A.n * A.out.c := Nat.mul_le_mul_right _ hp
  have hxs : ∀ x ∈ (List.range w).map (fun i => res (p + i)), x.length = A.out.c := by
    intro x hx
    simp only [List.mem_map, List.mem_range] at hx
    obtain ⟨i, hi, rfl⟩ := hx
    exact hres _ (by omega)
  obtain ⟨mem'', g1, g2, g3, g4, g5⟩ := store_spec (A.out.F.env w) junk (ofLanes A.out.c ((List.range w).map fun i => res (p + i)))
    mem' p (by rw [hF.width, hF.count]; exact ofLanes_shape (by simp) hxs) (by rw [hF.width, hF.count]; omega)
  rw [hF.width, hF.count] at g4 g5
  refine ⟨st.set A.out.arr mem'', ?_, by simp [hU.len], fun k hk => ?_, m0, mem'', e1, ?_, by omega, fun i hi => ?_, fun j hj => ?_⟩
  · unfold storeA ForEachStruct.store
    rw [e2]
    simp only
    rw [if_neg (by
      cases aligned with
      | false => simp
      | true => simp [hal rfl])]
    rw [if_neg (by omega), Int.toNat_natCast, g1, Outcome.bind_ok]
  · rw [List.getElem?_set_ne (Ne.symm hk)]; exact hU.other k hk
  · rw [List.getElem?_set_self (List.getElem?_eq_some_iff.1 e2).1]
  · by_cases hip : i < p
    · rw [← e4 i hip]
      apply structAt_congr
      intro m hm
      apply g5
      left
      have h := Nat.mul_le_mul_right A.out.c (show i + 1 ≤ p by omega)
      rw [Nat.add_mul, Nat.one_mul] at h
      omega
    · obtain ⟨d, rfl⟩ : ∃ d, i = p + d := ⟨i - p, by omega⟩
      apply List.ext_getElem?
      intro m
      by_cases hm : m < A.out.c
      · obtain ⟨v, a1, a2⟩ := g4 d (by omega) m hm
        rw [structAt, List.getElem?_take, if_pos hm, List.getElem?_drop, a2, ofLanes_get hxs hm a1]
        simp [show d < w by omega]
      · rw [List.getElem?_eq_none (by simp [structAt]; omega), List.getElem?_eq_none (by rw [hres _ (by omega)]; omega)]
  · rw [g5 j (Or.inr hj), e5 j]
    have := Nat.mul_le_mul_right A.out.c (show p ≤ p + w by omega)
    omega

theorem stores_as (ok : ArraysOk A arrays) (hres : ∀ i < A.n, (res i).length = A.out.c) {w : Nat} (hw : 0 < w) {aligned : Bool}
    (k p : Nat) (st : List (List α)) (hU : WrittenAs A arrays res p st)
    (hal : aligned = true → AlignedSeq A.e p (List.replicate k w)) (hp : p + w * k ≤ A.n) :
    ∃ st', storesA junk A aligned w ((List.range k).map fun j => (List.range w).map fun i => res (p + w * j + i)) (p : Int) st =
      .ok st' ∧ WrittenAs A arrays res (p + w * k) st' := by
  induction k generalizing p st with
  | zero => exact ⟨st, rfl, hU⟩
  | succ k ih =>
    rw [Nat.mul_succ] at hp
    obtain ⟨st1, h1, h2⟩ := store_as (junk := junk) ok hres hU hw (aligned := aligned) (fun ha => (hal ha).1) (by omega)
    obtain ⟨st2, h3, h4⟩ := ih (p + w) st1 h2 (fun ha => (hal ha).2) (by omega)
    refine ⟨st2, ?_, by rw [Nat.mul_succ, Nat.add_comm (w * k), ← Nat.add_assoc]; exact h4⟩
    rw [List.range_succ_eq_map, List.map_cons, List.map_map, storesA]
    simp only [Nat.mul_zero, Nat.add_zero]
    rw [h1, Outcome.bind_ok, show (p : Int) + (w : Int) = ((p + w : Nat) : Int) by omega, ← h3]
    congr 1
    apply List.map_congr_left
    intro j _
    apply List.map_congr_left
    intro i _
    congr 1
    rw [Nat.mul_succ]; omega

theorem groups_as (ok : ArraysOk A arrays) (hres : ∀ i < A.n, (res i).length = A.out.c) {op : VecOp (List α) (List α)}
    (hop : LaneWise op g) (gs : List Group)
    (hgs : ∀ G ∈ gs, 0 < G.w) (p : Nat) (st : List (List α)) (hU : WrittenAs A arrays res p st)
    (hc : ∀ x ∈ startsOf p (groupWidths gs), Compat A arrays g res x.1 x.2) (hal : GroupsAligned A.e p gs) (hp : p + span gs ≤ A.n) :
    ∃ st', runGroups (Transform.atPos (chunksA zero junk A op)) p gs st = .ok st' ∧ WrittenAs A arrays res (p + span gs) st' := by
  induction gs generalizing p st with
  | nil => exact ⟨st, rfl, hU⟩
  | cons G gs ih =>
    have hw := hgs G (by simp)
    rw [span_cons, Group.elems] at hp
    rw [show groupWidths (G :: gs) = List.replicate G.k G.w ++ groupWidths gs by simp [groupWidths], startsOf_append] at hc
    have hsum : (List.replicate G.k G.w).sum = G.elems := by simp [Group.elems, Nat.mul_comm]
    rw [hsum] at hc
    obtain ⟨st1, h1, h2⟩ := stores_as (junk := junk) ok hres hw G.k p st hU hal.1 (by omega)
    obtain ⟨st2, h3, h4⟩ := ih (fun G hG => hgs G (by simp [hG])) (p + G.elems) st1 h2 (fun x hx => hc x (by simp [hx])) hal.2 (by rw [Group.elems]; omega)
    refine ⟨st2, ?_, by rw [span_cons, ← Nat.add_assoc]; exact h4⟩
    rw [runGroups]
    have : Transform.atPos (chunksA zero junk A op) G p st = .ok st1 := by
      unfold Transform.atPos chunksA
      rw [eval_as ok hop hU hw _ _ (fun j hj => hc (p + G.w * j, G.w) (List.mem_append.2 (.inl (mem_startsOf_replicate.2 ⟨j, hj, rfl⟩)))) (Nat.le_refl _) (by omega), Outcome.bind_ok, h1]
    rw [this, Outcome.bind_ok, h3]

end TransformArrays
end Vir
