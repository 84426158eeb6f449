import Verif.Lemmas.Simdize

/-!
# C27, C28, C29: loads and stores of simdized structs
-/

namespace Vir.Spec

/-- Struct number `k` of an array of structs with `count` members each. -/
def structAt {α : Type} (mem : List α) (count k : Nat) : List α := (mem.drop (k * count)).take count

end Vir.Spec

namespace Vir.Simdize
open Vir.Simd Vir.Permute

variable {α : Type}

/-- What the types guarantee: three floats are three members, and `simd_permute` is applied to a register of eight floats. -/
structure Valid (S : SEnv) (P : PEnv) : Prop where
  pos : 0 < S.n
  count : 0 < S.count
  float3 : S.float3 = true → S.count = 3
  sizeR : S.float3 = true → S.n = 8 → P.sizeR = 8 * P.sizeT
  float : P.isFloat = true → P.sizeT = 4

/-- A simdized struct of `count` members and `n` lanes. -/
def Shape (count n : Nat) (v : List (List α)) : Prop := v.length = count ∧ ∀ w ∈ v, w.length = n

/-- The structs that are loaded "unordered": three floats, eight lanes, one register per member, at run time. -/
def Unordered (S : SEnv) : Prop :=
  S.genericOnly = false ∧ S.packed = true ∧ S.float3 = true ∧ S.sameTuple = true ∧ S.n = 8 ∧ S.triv = true

instance (S : SEnv) : Decidable (Unordered S) := by unfold Unordered; infer_instance

/-- An AVX build loading `struct { float x, y, z; }` with eight lanes. -/
def f3x8 : SEnv := { genericOnly := false, n := 8, count := 3, packed := true, equalSizes := true, float3 := true, sameTuple := true, triv := true, native := 8 }
/-- An SSE build loading the same struct with four lanes. -/
def f3x4 : SEnv := { f3x8 with n := 4, native := 4 }
/-- An AVX-512 build loading three 32-bit integers with sixteen lanes. -/
def i3x16 : SEnv := { f3x8 with float3 := false, n := 16, native := 16 }
/-- Two doubles, four lanes. -/
def d2x4 : SEnv := { f3x8 with float3 := false, sameTuple := false, count := 2, n := 4, native := 4 }
/-- Five members, six lanes. -/
def g5x6 : SEnv := { f3x8 with float3 := false, sameTuple := false, count := 5, n := 6, packed := false }
def pf8 : PEnv := { genericOnly := false, shuffle := true, trivV := true, trivR := true, native := 8, avx2 := true, sizeR := 32, sizeT := 4, isFloat := true }

example : Valid f3x8 pf8 ∧ Valid f3x4 pf8 ∧ Valid i3x16 pf8 ∧ Valid d2x4 pf8 ∧ Valid g5x6 pf8 := by
  refine ⟨?_, ?_, ?_, ?_, ?_⟩ <;> constructor <;> decide

/-- All loads: which lane gets which struct. -/
theorem load_members (S : SEnv) (P : PEnv) (zero : α) (junk : Nat → α) (mem : List α) (off : Nat) (hv : Valid S P)
    (h : (off + S.n) * S.count ≤ mem.length) :
    ∃ r, load S P zero junk mem off = .ok r ∧
      Members S.count S.n r mem (fun i => off + if Unordered S then 3 * i % S.n else i) := by
  have hg : ¬ Unordered S → ∃ r, loadGeneric S.n S.count mem off = .ok r ∧
      Members S.count S.n r mem (fun i => off + if Unordered S then 3 * i % S.n else i) := fun hu => by
    simp only [hu, if_false]
    exact loadGeneric_members h
  unfold load
  by_cases hc : (!S.genericOnly && decide (S.n > 1) && S.packed && decide (S.count ≥ 2) && hasSingleBit S.n) = true
  · rw [if_pos hc]
    simp only [Bool.and_eq_true, Bool.not_eq_true', decide_eq_true_eq] at hc
    obtain ⟨⟨⟨⟨c1, c2⟩, c3⟩, c4⟩, c5⟩ := hc
    have h3 : ¬ Unordered S → ∃ r, (if S.count = 3 ∧ S.n > 2 ∧ S.equalSizes = true ∧ S.n ≤ S.native then load3 junk S.n mem off
        else loadGeneric S.n S.count mem off) = .ok r ∧
        Members S.count S.n r mem (fun i => off + if Unordered S then 3 * i % S.n else i) := fun hu => by
      have hg := hg hu
      simp only [hu, if_false] at hg ⊢
      split
      · rename_i hc
        obtain ⟨r, h1, h2⟩ := load3_members (junk := junk) (off := off) (singleBit_mod3 c5) (by rw [hc.1] at h; exact h)
        refine ⟨r, h1, ?_⟩
        rw [hc.1]; exact h2
      · exact hg
    dsimp only
    by_cases d1 : S.count = 2 ∧ S.n > 2
    · have hu : ¬ Unordered S := fun hu => by have := hv.float3 hu.2.2.1; omega
      rw [if_pos d1]
      have h3 := h3 hu
      simp only [hu, if_false] at h3 ⊢
      split
      · obtain ⟨r, h1, h2⟩ := load2_members (junk := junk) (off := off) (singleBit_even c5 c2) (by rw [d1.1] at h; exact h)
        refine ⟨r, h1, ?_⟩
        rw [d1.1]; exact h2
      · exact h3
    · rw [if_neg d1]
      by_cases d2 : S.float3 = true ∧ S.sameTuple = true ∧ S.n = 8 ∧ S.triv = true
      · rw [if_pos d2]
        have hu : Unordered S := ⟨c1, c3, d2.1, d2.2.1, d2.2.2.1, d2.2.2.2⟩
        have hct := hv.float3 d2.1
        obtain ⟨r, h1, h2⟩ := load3f8_members (zero := zero) (junk := junk) (hv.sizeR d2.1 d2.2.2.1) hv.float
          (by rw [hct, d2.2.2.1] at h; exact h)
        refine ⟨r, h1, ?_⟩
        simp only [hu, if_true]
        rw [hct, d2.2.2.1]; exact h2
      · rw [if_neg d2]
        have hu : ¬ Unordered S := fun hu => d2 ⟨hu.2.2.1, hu.2.2.2.1, hu.2.2.2.2.1, hu.2.2.2.2.2⟩
        by_cases d3 : S.float3 = true ∧ S.sameTuple = true ∧ S.n = 4 ∧ S.triv = true
        · rw [if_pos d3]
          have hct := hv.float3 d3.1
          obtain ⟨r, h1, h2⟩ := load3f4_members (junk := junk) (mem := mem) (off := off)
            (by rw [hct, d3.2.2.1] at h; exact h)
          refine ⟨r, h1, ?_⟩
          simp only [hu, if_false]
          rw [hct, d3.2.2.1]; exact h2
        · rw [if_neg d3]
          exact h3 hu
  · rw [if_neg hc]
    refine hg fun hu => hc ?_
    obtain ⟨u1, u2, u3, u4, u5, u6⟩ := hu
    have := hv.float3 u3
    rw [u1, u2, u5, this]; decide

theorem Members.shape {count n : Nat} {r : List (List α)} {mem : List α} {src : Nat → Nat} (h : Members count n r mem src) :
    Shape count n r := by
  refine ⟨h.1, fun w hw => ?_⟩
  obtain ⟨m, hm, rfl⟩ := List.mem_iff_getElem.1 hw
  obtain ⟨v, h1, h2⟩ := h.2 m (by rw [← h.1]; exact hm)
  rw [List.getElem?_eq_getElem hm] at h1
  cases h1; exact h2.1

theorem Members.subscript {count n i : Nat} {r : List (List α)} {mem : List α} {src : Nat → Nat} (h : Members count n r mem src)
    (hi : i < n) :
    subscript count r i = .ok (Spec.structAt mem count (src i)) := by
  have hs := h.shape
  obtain ⟨s, e, h1, h2⟩ := subscript_vec hs.1 hs.2 hi
  rw [e]
  congr 1
  apply List.ext_getElem?
  intro m
  by_cases hm : m < count
  · rw [h2 m hm]
    obtain ⟨v, g1, g2, g3⟩ := h.2 m hm
    simp only [laneOf, g1, Option.bind_some]
    rw [g3 i hi, Spec.structAt, List.getElem?_take, if_pos hm, List.getElem?_drop]
  · rw [List.getElem?_eq_none (by omega), List.getElem?_eq_none]
    simp [Spec.structAt]; omega

/-- **C27** (partial): loading makes `x[i]` the `i`-th struct in memory, and puts member `m` of struct `i` into lane `i` of member
vector `m`, for every width, every member count, every contents and every path except three floats with eight lanes. -/
theorem load_spec_partial (S : SEnv) (P : PEnv) (zero : α) (junk : Nat → α) (mem : List α) (off : Nat) (hv : Valid S P)
    (h : (off + S.n) * S.count ≤ mem.length) (hu : ¬ Unordered S) :
    ∃ r, load S P zero junk mem off = .ok r ∧ Shape S.count S.n r ∧
      (∀ i < S.n, subscript S.count r i = .ok (Spec.structAt mem S.count (off + i))) ∧
      ∀ m < S.count, ∀ i < S.n, ∃ w, r[m]? = some w ∧ w[i]? = mem[(off + i) * S.count + m]? := by
  obtain ⟨r, e, hm⟩ := load_members S P zero junk mem off hv h
  refine ⟨r, e, hm.shape, fun i hi => ?_, fun m hm' i hi => ?_⟩
  · have := hm.subscript hi
    simp only [if_neg hu] at this
    exact this
  · obtain ⟨w, h1, h2⟩ := hm.2 m hm'
    refine ⟨w, h1, ?_⟩
    have := h2.2 i hi
    simp only [if_neg hu] at this
    exact this

example : ∃ r, load f3x4 pf8 0 (fun i => 100 + i) (List.range 20) 1 = .ok r ∧ r = [[3, 6, 9, 12], [4, 7, 10, 13], [5, 8, 11, 14]] :=
  ⟨_, rfl, by decide⟩
example : (load i3x16 pf8 0 (fun i => 100 + i) (List.range 50) 0 >>= fun r => subscript 3 r 5) = .ok [15, 16, 17] := by
  decide +kernel
example : (load d2x4 pf8 0 (fun i => 100 + i) (List.range 8) 0) = .ok [[0, 2, 4, 6], [1, 3, 5, 7]] := by
  decide +kernel
example : ¬ Unordered f3x4 ∧ ¬ Unordered i3x16 ∧ ¬ Unordered d2x4 ∧ ¬ Unordered g5x6 ∧ Unordered f3x8 := by decide

/-- **C27** (the exception): three floats with eight lanes: `x[i]` is struct `3 * i mod 8`. -/
theorem load_unordered (S : SEnv) (P : PEnv) (zero : α) (junk : Nat → α) (mem : List α) (off : Nat) (hv : Valid S P)
    (h : (off + 8) * 3 ≤ mem.length) (hu : Unordered S) :
    ∃ r, load S P zero junk mem off = .ok r ∧ Shape 3 8 r ∧
      ∀ i < 8, subscript 3 r i = .ok (Spec.structAt mem 3 (off + 3 * i % 8)) := by
  have hn : S.n = 8 := hu.2.2.2.2.1
  have hc : S.count = 3 := hv.float3 hu.2.2.1
  rw [← hn, ← hc] at h
  obtain ⟨r, e, hm⟩ := load_members S P zero junk mem off hv h
  refine ⟨r, e, by rw [← hn, ← hc]; exact hm.shape, fun i hi => ?_⟩
  have := hm.subscript (show i < S.n by omega)
  simp only [if_pos hu, hn, hc] at this
  exact this

/-- **C27** is false of the code: an AVX build loads three-float structs so that `x[1]` is the struct with index 3. -/
theorem load_wrong : ∃ (S : SEnv) (P : PEnv) (mem : List Nat) (r : List (List Nat)), Valid S P ∧
    S.n * S.count ≤ mem.length ∧ load S P 0 (fun _ => 0) mem 0 = .ok r ∧
    subscript S.count r 1 = .ok (Spec.structAt mem S.count 3) ∧ Spec.structAt mem S.count 3 ≠ Spec.structAt mem S.count 1 :=
  ⟨f3x8, pf8, List.range 24, [[0, 9, 18, 3, 12, 21, 6, 15], [1, 10, 19, 4, 13, 22, 7, 16], [2, 11, 20, 5, 14, 23, 8, 17]],
    by constructor <;> decide, by decide, by decide +kernel, by decide +kernel, by decide⟩

/-- **C27**: on every path the lanes are the `N` structs of the block, each in exactly one lane, with all its members in that
lane. -/
theorem load_permutation (S : SEnv) (P : PEnv) (zero : α) (junk : Nat → α) (mem : List α) (off : Nat) (hv : Valid S P)
    (h : (off + S.n) * S.count ≤ mem.length) :
    ∃ r, ∃ σ : Nat → Nat, load S P zero junk mem off = .ok r ∧ Shape S.count S.n r ∧
      (∀ i < S.n, σ i < S.n ∧ subscript S.count r i = .ok (Spec.structAt mem S.count (off + σ i))) ∧
      ∀ k < S.n, ∃ i, i < S.n ∧ σ i = k ∧ ∀ i' < S.n, σ i' = k → i' = i := by
  obtain ⟨r, e, hm⟩ := load_members S P zero junk mem off hv h
  refine ⟨r, fun i => if Unordered S then 3 * i % S.n else i, e, hm.shape, fun i hi => ⟨?_, hm.subscript hi⟩,
    fun k hk => ?_⟩
  · split
    · exact Nat.mod_lt _ (by omega)
    · exact hi
  · by_cases hu : Unordered S
    · simp only [if_pos hu]
      rw [hu.2.2.2.2.1] at *
      exact ⟨3 * k % 8, by omega, by omega, fun i' h1 h2 => by omega⟩
    · simp only [if_neg hu]
      exact ⟨k, hk, rfl, fun i' _ h2 => h2⟩

/-- **C29**: loading reads exactly `N` structs: if they are not all in the array the load is undefined (and by `load_spec_partial`
and `load_unordered` it is defined if they are). -/
theorem load_oob (S : SEnv) (P : PEnv) (zero : α) (junk : Nat → α) (mem : List α) (off : Nat) (hv : Valid S P)
    (h : mem.length < (off + S.n) * S.count) : ∃ u, load S P zero junk mem off = .ub u := by
  have hg := loadGeneric_oob hv.pos hv.count h
  unfold load
  split
  · rename_i hc
    simp only [Bool.and_eq_true, Bool.not_eq_true', decide_eq_true_eq] at hc
    obtain ⟨⟨⟨⟨c1, c2⟩, c3⟩, c4⟩, c5⟩ := hc
    have h3 : ∃ u, (if S.count = 3 ∧ S.n > 2 ∧ S.equalSizes = true ∧ S.n ≤ S.native then load3 junk S.n mem off
        else loadGeneric S.n S.count mem off) = .ub u := by
      split
      · rename_i hc
        rw [hc.1] at h
        exact three_loads_oob hv.pos (by omega)
      · exact hg
    dsimp only
    split
    · rename_i d1
      split
      · rw [d1.1] at h
        exact load2_oob (singleBit_even c5 c2) hv.pos h
      · exact h3
    · split
      · rename_i d
        rw [hv.float3 d.1, d.2.2.1] at h
        exact three_loads_oob (by omega) (by omega)
      · split
        · rename_i d
          rw [hv.float3 d.1, d.2.2.1] at h
          exact three_loads_oob (by omega) (by omega)
        · exact h3
  · exact hg

theorem Members.congr {count n : Nat} {r r' : List (List α)} {mem mem' : List α} {src : Nat → Nat}
    (h : Members count n r mem src) (h' : Members count n r' mem' src)
    (hsrc : ∀ i < n, ∀ m < count, mem[src i * count + m]? = mem'[src i * count + m]?) : r = r' := by
  apply List.ext_getElem?
  intro m
  by_cases hm : m < count
  · obtain ⟨v, h1, h2⟩ := h.2 m hm
    obtain ⟨v', h1', h2'⟩ := h'.2 m hm
    rw [h1, h1']
    congr 1
    apply List.ext_getElem?
    intro i
    by_cases hi : i < n
    · rw [h2.2 i hi, h2'.2 i hi]; exact hsrc i hi m hm
    · rw [List.getElem?_eq_none (by rw [h2.1]; omega), List.getElem?_eq_none (by rw [h2'.1]; omega)]
  · rw [List.getElem?_eq_none (by rw [h.1]; omega), List.getElem?_eq_none (by rw [h'.1]; omega)]

/-- **C29**: the loaded value depends on nothing but those `N` structs, on no path (in particular not on the value of unused lanes
of the shuffles). -/
theorem load_local (S : SEnv) (P : PEnv) (zero zero' : α) (junk junk' : Nat → α) (mem mem' : List α) (off : Nat) (hv : Valid S P)
    (h : (off + S.n) * S.count ≤ mem.length) (h' : (off + S.n) * S.count ≤ mem'.length)
    (heq : ∀ k < S.n, Spec.structAt mem S.count (off + k) = Spec.structAt mem' S.count (off + k)) :
    load S P zero junk mem off = load S P zero' junk' mem' off := by
  obtain ⟨r, e, hm⟩ := load_members S P zero junk mem off hv h
  obtain ⟨r', e', hm'⟩ := load_members S P zero' junk' mem' off hv h'
  rw [e, e', hm.congr hm' fun i hi m hmc => ?_]
  have hk : (if Unordered S then 3 * i % S.n else i) < S.n := by
    split
    · exact Nat.mod_lt _ hv.pos
    · exact hi
  have := congrArg (·[m]?) (heq _ hk)
  simpa [Spec.structAt, List.getElem?_take, hmc, List.getElem?_drop] using this

/-- **C28**: storing writes to struct `off + i` the lanes `i` of all member vectors and leaves everything else in memory as it
was, for every width, every member count, every contents and every path. -/
theorem store_spec (S : SEnv) (junk : Nat → α) (v : List (List α)) (mem : List α) (off : Nat) (hs : Shape S.count S.n v)
    (h : (off + S.n) * S.count ≤ mem.length) :
    ∃ mem', store S junk v mem off = .ok mem' ∧ mem'.length = mem.length ∧
      (∀ i < S.n, subscript S.count v i = .ok (Spec.structAt mem' S.count (off + i))) ∧
      (∀ i < S.n, ∀ m < S.count, ∃ w, v[m]? = some w ∧ mem'[(off + i) * S.count + m]? = w[i]?) ∧
      ∀ j : Nat, (j < off * S.count ∨ (off + S.n) * S.count ≤ j) → mem'[j]? = mem[j]? := by
  have key : ∃ mem', store S junk v mem off = .ok mem' ∧ Stored S.count S.n v mem mem' off := by
    unfold store
    split
    · rename_i hc
      simp only [Bool.and_eq_true, Bool.not_eq_true', decide_eq_true_eq] at hc
      obtain ⟨⟨⟨⟨c1, c2⟩, c3⟩, c4⟩, c5⟩ := hc
      split
      · rename_i d
        rw [d.1] at hs h ⊢
        exact store3_stored (by omega) (singleBit_mod3 c5) hs.1 hs.2 h
      · exact storeGeneric_stored hs.1 hs.2 h
    · exact storeGeneric_stored hs.1 hs.2 h
  obtain ⟨mem', e, h1, h2, h3⟩ := key
  refine ⟨mem', e, h1, fun i hi => ?_, fun i hi m hm => ?_, h3⟩
  · obtain ⟨s, e, g1, g2⟩ := subscript_vec hs.1 hs.2 hi
    rw [e]
    congr 1
    apply List.ext_getElem?
    intro m
    by_cases hm : m < S.count
    · rw [g2 m hm]
      show laneOf v m i = _
      rw [← h2 i m hi hm, Spec.structAt, List.getElem?_take, if_pos hm, List.getElem?_drop]
    · rw [List.getElem?_eq_none (by omega), List.getElem?_eq_none]
      simp [Spec.structAt]; omega
  · have hm' : m < v.length := by rw [hs.1]; exact hm
    refine ⟨v[m], List.getElem?_eq_getElem hm', ?_⟩
    rw [h2 i m hi hm, laneOf, List.getElem?_eq_getElem hm', Option.bind_some]

example : store f3x4 (fun i => 100 + i) [[10, 20, 30, 40], [11, 21, 31, 41], [12, 22, 32, 42]] (List.replicate 15 0) 0
    = .ok [10, 11, 12, 20, 21, 22, 30, 31, 32, 40, 41, 42, 0, 0, 0] := by decide +kernel
example : store f3x8 (fun i => 100 + i) [List.range 8, (List.range 8).map (· + 10), (List.range 8).map (· + 20)] (List.replicate 24 0) 0
    = .ok [0, 10, 20, 1, 11, 21, 2, 12, 22, 3, 13, 23, 4, 14, 24, 5, 15, 25, 6, 16, 26, 7, 17, 27] := by decide +kernel

/-- **C29**: storing writes exactly `N` structs: if they do not all lie in the array the store is undefined. -/
theorem store_oob (S : SEnv) (junk : Nat → α) (v : List (List α)) (mem : List α) (off : Nat) (hs : Shape S.count S.n v)
    (hn : 0 < S.n) (hc : 0 < S.count) (h : mem.length < (off + S.n) * S.count) : ∃ u, store S junk v mem off = .ub u := by
  have hg := storeGeneric_oob hs.1 hs.2 hn hc h
  unfold store
  split
  · rename_i hc
    simp only [Bool.and_eq_true, Bool.not_eq_true', decide_eq_true_eq] at hc
    obtain ⟨⟨⟨⟨c1, c2⟩, c3⟩, c4⟩, c5⟩ := hc
    split
    · rename_i d
      rw [d.1] at hs h
      exact store3_oob (by omega) (singleBit_mod3 c5) hs.1 hs.2 h
    · exact hg
  · exact hg

/-- What a load of a just stored value yields: lane `i` comes from lane `3 * i mod 8` on the unordered path, from lane `i` on all
others. -/
theorem store_then_load (S : SEnv) (P : PEnv) (zero : α) (junk : Nat → α) (v : List (List α)) (mem : List α) (off : Nat)
    (hv : Valid S P) (hs : Shape S.count S.n v) (h : (off + S.n) * S.count ≤ mem.length) :
    ∃ mem' r, store S junk v mem off = .ok mem' ∧ load S P zero junk mem' off = .ok r ∧ Shape S.count S.n r ∧
      ∀ i < S.n, subscript S.count r i = subscript S.count v (if Unordered S then 3 * i % 8 else i) := by
  obtain ⟨mem', e, h1, h2, _, _⟩ := store_spec S junk v mem off hs h
  obtain ⟨r, e', hm⟩ := load_members S P zero junk mem' off hv (by omega)
  refine ⟨mem', r, e, e', hm.shape, fun i hi => ?_⟩
  rw [hm.subscript hi]
  by_cases hu : Unordered S
  · simp only [if_pos hu]
    have hn : S.n = 8 := hu.2.2.2.2.1
    rw [h2 (3 * i % 8) (by omega), hn]
  · simp only [if_neg hu]
    rw [h2 i hi]

theorem shape_ext {count n : Nat} {v w : List (List α)} (hv : Shape count n v) (hw : Shape count n w)
    (h : ∀ i < n, subscript count v i = subscript count w i) : v = w := by
  have key : ∀ m i, m < count → i < n → laneOf v m i = laneOf w m i := fun m i hm hi => by
    obtain ⟨s, e, _, g⟩ := subscript_vec hv.1 hv.2 hi
    obtain ⟨s', e', _, g'⟩ := subscript_vec hw.1 hw.2 hi
    have := h i hi
    rw [e, e'] at this
    cases this
    exact (g m hm).symm.trans (g' m hm)
  apply List.ext_getElem?
  intro m
  by_cases hm : m < count
  · have a : m < v.length := by rw [hv.1]; exact hm
    have b : m < w.length := by rw [hw.1]; exact hm
    rw [List.getElem?_eq_getElem a, List.getElem?_eq_getElem b]
    congr 1
    apply List.ext_getElem?
    intro i
    by_cases hi : i < n
    · have := key m i hm hi
      simpa [laneOf, a, b] using this
    · rw [List.getElem?_eq_none (by rw [hv.2 _ (List.getElem_mem a)]; omega),
        List.getElem?_eq_none (by rw [hw.2 _ (List.getElem_mem b)]; omega)]
  · rw [List.getElem?_eq_none (by rw [hv.1]; omega), List.getElem?_eq_none (by rw [hw.1]; omega)]

/-- **C29** (partial): loading what was just stored gives the same simdized value, on all paths but the unordered one. -/
theorem load_store_partial (S : SEnv) (P : PEnv) (zero : α) (junk : Nat → α) (v : List (List α)) (mem : List α) (off : Nat)
    (hv : Valid S P) (hs : Shape S.count S.n v) (h : (off + S.n) * S.count ≤ mem.length) (hu : ¬ Unordered S) :
    (do load S P zero junk (← store S junk v mem off) off) = .ok v := by
  obtain ⟨mem', r, e, e', hr, heq⟩ := store_then_load S P zero junk v mem off hv hs h
  rw [e, Outcome.bind_ok, e']
  congr 1
  refine shape_ext hr hs fun i hi => ?_
  rw [heq i hi, if_neg hu]

/-- What storing a just loaded value does to memory. -/
theorem load_then_store (S : SEnv) (P : PEnv) (zero : α) (junk : Nat → α) (mem : List α) (off : Nat)
    (hv : Valid S P) (h : (off + S.n) * S.count ≤ mem.length) :
    ∃ mem', (do store S junk (← load S P zero junk mem off) mem off) = .ok mem' ∧ mem'.length = mem.length ∧
      (∀ i < S.n, Spec.structAt mem' S.count (off + i) = Spec.structAt mem S.count (off + if Unordered S then 3 * i % 8 else i)) ∧
      ∀ j : Nat, (j < off * S.count ∨ (off + S.n) * S.count ≤ j) → mem'[j]? = mem[j]? := by
  obtain ⟨r, e, hm⟩ := load_members S P zero junk mem off hv h
  obtain ⟨mem', e', h1, h2, _, h4⟩ := store_spec S junk r mem off hm.shape h
  refine ⟨mem', by rw [e, Outcome.bind_ok, e'], h1, fun i hi => ?_, h4⟩
  have a := hm.subscript hi
  rw [h2 i hi] at a
  cases hu : decide (Unordered S) with
  | true =>
    have hu := of_decide_eq_true hu
    have hn : S.n = 8 := hu.2.2.2.2.1
    simp only [if_pos hu] at a ⊢
    rw [hn] at a
    simpa using a
  | false =>
    have hu := of_decide_eq_false hu
    simp only [if_neg hu] at a ⊢
    simpa using a

/-- **C29** (partial): storing what was just loaded leaves memory unchanged, on all paths but the unordered one. -/
theorem store_load_partial (S : SEnv) (P : PEnv) (zero : α) (junk : Nat → α) (mem : List α) (off : Nat) (hv : Valid S P)
    (h : (off + S.n) * S.count ≤ mem.length) (hu : ¬ Unordered S) :
    (do store S junk (← load S P zero junk mem off) mem off) = .ok mem := by
  obtain ⟨mem', e, h1, h2, h3⟩ := load_then_store S P zero junk mem off hv h
  rw [e]
  congr 1
  apply List.ext_getElem?
  intro j
  by_cases hj : j < off * S.count ∨ (off + S.n) * S.count ≤ j
  · exact h3 j hj
  · have hc := hv.count
    have hd := Nat.div_add_mod j S.count
    have hmod := Nat.mod_lt j hc
    have hlo : off ≤ j / S.count := (Nat.le_div_iff_mul_le hc).2 (by omega)
    have hhi : j / S.count < off + S.n := (Nat.div_lt_iff_lt_mul hc).2 (by omega)
    have := congrArg (·[j % S.count]?) (h2 (j / S.count - off) (by omega))
    simp only [if_neg hu, Spec.structAt, List.getElem?_take, hmod, if_true, List.getElem?_drop] at this
    rw [show off + (j / S.count - off) = j / S.count by omega, Nat.mul_comm, hd] at this
    exact this

/-- **C29** is false of the code: on an AVX build, loading eight three-float structs and storing them again changes memory. -/
theorem store_load_wrong : ∃ (S : SEnv) (P : PEnv) (mem mem' : List Nat), Valid S P ∧ S.n * S.count ≤ mem.length ∧
    (do store S (fun _ => 0) (← load S P 0 (fun _ => 0) mem 0) mem 0) = .ok mem' ∧ mem' ≠ mem :=
  ⟨f3x8, pf8, List.range 24, [0, 1, 2, 9, 10, 11, 18, 19, 20, 3, 4, 5, 12, 13, 14, 21, 22, 23, 6, 7, 8, 15, 16, 17],
    by constructor <;> decide, by decide, by decide +kernel, by decide⟩

/-! ## The theorems applied to concrete data -/

private theorem valid4 : Valid f3x4 pf8 := by constructor <;> decide
private theorem valid8 : Valid f3x8 pf8 := by constructor <;> decide
private def junkN (i : Nat) : Nat := 100 + i
private def three4 : List (List Nat) := [[10, 20, 30, 40], [11, 21, 31, 41], [12, 22, 32, 42]]
private theorem three4_shape : Shape 3 4 three4 := ⟨by decide, by decide⟩

example := load_spec_partial f3x4 pf8 0 junkN (List.range 20) 1 valid4 (by decide) (by decide)
example := load_unordered f3x8 pf8 0 junkN (List.range 30) 2 valid8 (by decide) (by decide)
example := load_permutation f3x8 pf8 0 junkN (List.range 30) 2 valid8 (by decide)
example := load_oob f3x8 pf8 0 junkN (List.range 29) 2 valid8 (by decide)
example := load_local f3x4 pf8 0 7 junkN id (List.range 20) (List.range 15) 1 valid4 (by decide) (by decide) (by decide)
example := store_spec f3x4 junkN three4 (List.range 20) 1 three4_shape (by decide)
example := store_oob f3x4 junkN three4 (List.range 14) 1 three4_shape (by decide) (by decide) (by decide)
example := store_then_load f3x4 pf8 0 junkN three4 (List.range 20) 1 valid4 three4_shape (by decide)
example := load_store_partial f3x4 pf8 0 junkN three4 (List.range 20) 1 valid4 three4_shape (by decide) (by decide)
example := load_then_store f3x8 pf8 0 junkN (List.range 30) 2 valid8 (by decide)
example := store_load_partial f3x4 pf8 0 junkN (List.range 20) 1 valid4 (by decide) (by decide)

end Vir.Simdize
