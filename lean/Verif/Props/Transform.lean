import Verif.Lemmas.TransformOob
import Verif.Props.Platform

/-!
# C10–C13: `vir::transform`

Memory is one arena `List α` holding all ranges, so that the statements cover overlapping ranges. The inputs
start at the offsets `t.ins`, the output at `t.out`, and every range has `t.n` elements.
-/

namespace Vir
open Spec ForEach Transform

variable {α : Type}

/-- `mem'` is `mem` after storing `g` of the input elements into the output range: output element `i` is `g` of
the elements `i` of the inputs *before* the call and nothing else has changed. -/
def Spec.Mapped (t : TEnv) (g : List α → α) (mem mem' : List α) : Prop :=
  mem'.length = mem.length ∧
  (∀ i, i < t.n → mem'[t.out + i]? = some (g (t.ins.filterMap fun a => mem[a + i]?))) ∧
  (∀ j, j < t.out ∨ t.out + t.n ≤ j → mem'[j]? = mem[j]?)

private theorem mapped_writeAt {t : TEnv} {mem : List α} (ok : RangesOk t mem) {op : VecOp α α} {g : List α → α}
    (hg : LaneWise op g) (ws : List Nat) (hw : ws.sum = t.n) :
    Mapped t g mem (writeAt mem t.out (outs op t.ins mem 0 ws)) := by
  have hl := outs_length op ok.ins_ne ok.ins_le 0 ws (by omega)
  have ho := ok.out_le
  refine ⟨writeAt_length _ _ _ (by omega), ?_, ?_⟩
  · intro i hi
    rw [writeAt_get _ _ _ (by omega), if_neg (by omega), if_pos (by omega),
      outs_laneWise hg ok.ins_ne ok.ins_le 0 ws (by omega), hw]
    simp only [List.getElem?_map, Nat.add_sub_cancel_left, List.getElem?_range hi, Option.map_some, Nat.zero_add]
  · intro j hj
    rw [writeAt_get _ _ _ (by omega)]
    rcases hj with hj | hj
    · rw [if_pos hj]
    · rw [if_neg (by omega), if_neg (by omega)]

theorem widthsOf_sum {e : Env} (hs : 0 < e.size) {n : Nat} (hp : n = 0 ∨ proCount e n ≤ n) :
    (widthsOf e n).sum = n := by
  by_cases hn : n = 0
  · simp [widthsOf, hn]
  have hp : proCount e n ≤ n := by omega
  have := elems_callsOf hs (Or.inr hp)
  have h2 : ∀ k w, (List.replicate k w).sum = k * w := by simp
  simp only [callsOf, hn, if_false, elems_append, elems_singles, elems_replicate, Call.elems] at this
  simp only [widthsOf, hn, if_false, List.sum_append, h2]
  rw [Nat.mul_assoc, Nat.mul_comm (unroll e)]
  simpa using this

/-- **C10, C11.** With a lane-wise operation `transform` stores the element-wise map of the inputs, leaves
everything else alone, and returns the end of the output range. -/
theorem transform_maps {t : TEnv} {mem : List α} (ok : RangesOk t mem) (wf : t.e.WF)
    (hce : t.e.constEval = false) (hpt : t.e.strictPtr = false) (hf : t.e.Fits t.n)
    (hr : ReachesAlignment t.e t.n) (ha : t.e.pol.assumeMatchingSize = true → t.e.size ∣ t.n)
    (op : VecOp α α) (g : List α → α) (hg : LaneWise op g) :
    ∃ mem', transform t op mem = .ok ((t.n : Int), mem') ∧ Mapped t g mem mem' := by
  have hp := (reaches_iff wf).1 hr
  exact ⟨_, transform_eq ok wf hce hf hp (by simp [hpt]) ha op,
    mapped_writeAt ok hg _ (widthsOf_sum wf.size_pos hp)⟩

/-- **C10, C11 (any operation).** Whatever the vector operation does, the output is the concatenation of its
results on consecutive chunks of the inputs that together cover the range, every chunk being at most as wide
as the policy says; everything else is unchanged, and the end of the output range is returned. -/
theorem transform_chunks {t : TEnv} {mem : List α} (ok : RangesOk t mem) (wf : t.e.WF)
    (hce : t.e.constEval = false) (hpt : t.e.strictPtr = false) (hf : t.e.Fits t.n)
    (hr : ReachesAlignment t.e t.n) (ha : t.e.pol.assumeMatchingSize = true → t.e.size ∣ t.n)
    (op : VecOp α α) :
    ∃ ws : List Nat, ws.sum = t.n ∧ (∀ w ∈ ws, w = t.e.size ∨ (w < t.e.size ∧ ∃ j, w = 2 ^ j)) ∧
      (t.e.pol.assumeMatchingSize = true → ∀ w ∈ ws, w = t.e.size) ∧
      transform t op mem = .ok ((t.n : Int),
        mem.take t.out ++ outs op t.ins mem 0 ws ++ mem.drop (t.out + t.n)) := by
  have hp := (reaches_iff wf).1 hr
  have hsum := widthsOf_sum wf.size_pos hp
  refine ⟨widthsOf t.e t.n, hsum, ?_, ?_, ?_⟩
  · intro w hw
    unfold widthsOf at hw
    by_cases hn : t.n = 0
    · simp [hn] at hw
    simp only [hn, if_false, List.mem_append] at hw
    rcases hw with hw | hw | hw | hw
    · right
      rcases proCount_cases t.e t.n with h | ⟨h1, h2, h3⟩
      · rw [h] at hw; simp at hw
      · obtain ⟨K, hK⟩ := proInfo wf h1
        have hlt := hK.tp_lt h2
        rw [← h3] at hlt
        obtain ⟨j, _, _, rfl, hb⟩ := mem_ascBits hw
        have := Nat.ge_two_pow_of_testBit hb
        have := hK.le_size
        exact ⟨by omega, j, rfl⟩
    · left; exact (List.mem_replicate.1 hw).2
    · left; exact (List.mem_replicate.1 hw).2
    · right
      obtain ⟨j, _, rfl, hb⟩ := mem_descBits hw
      have := Nat.ge_two_pow_of_testBit hb
      have := Nat.mod_lt (t.n - proCount t.e t.n) wf.size_pos
      exact ⟨by omega, j, rfl⟩
  · intro has w hw
    unfold widthsOf at hw
    by_cases hn : t.n = 0
    · simp [hn] at hw
    simp only [hn, if_false, proCount_assume wf t.n has, bitsAsc_zero, List.nil_append, Nat.sub_zero,
      Nat.mod_eq_zero_of_dvd (ha has), bitsDesc_zero, List.append_nil, List.mem_append] at hw
    rcases hw with hw | hw
    · exact (List.mem_replicate.1 hw).2
    · exact (List.mem_replicate.1 hw).2
  · rw [transform_eq ok wf hce hf hp (by simp [hpt]) ha op]
    simp only [writeAt]
    rw [outs_length op ok.ins_ne ok.ins_le 0 _ (by omega), hsum]

/-- With `assume_matching_size` a size that is no multiple of the width traps. -/
theorem transform_assume_traps {t : TEnv} (ha : t.e.pol.assumeMatchingSize = true) (hn : ¬ t.e.size ∣ t.n)
    (op : VecOp α α) (mem : List α) : transform t op mem = .trap := by
  have h0 : t.n ≠ 0 := by intro h; rw [h] at hn; exact hn (Nat.dvd_zero _)
  have h1 : t.n % t.e.size ≠ 0 := fun h => hn (Nat.dvd_of_mod_eq_zero h)
  simp [transform, h0, ha, h1]

/-- **C12.** On valid ranges `transform` has undefined behaviour exactly if the policy prefers aligned stores
and the output range ends before its first aligned position. -/
theorem transform_defined_iff {t : TEnv} {mem : List α} (ok : RangesOk t mem) (wf : t.e.WF)
    (hce : t.e.constEval = false) (hpt : t.e.strictPtr = false) (hf : t.e.Fits t.n) (op : VecOp α α) :
    (transform t op mem).Defined ↔ ReachesAlignment t.e t.n := by
  constructor
  · intro hd
    rw [reaches_iff wf]
    by_cases hu : useAligned t.e = true
    · by_cases hm : misalignedBytes t.e = 0
      · right; simp [proCount, hu, hm]
      · by_cases hn : t.n = 0
        · exact Or.inl hn
        · right
          have : proCount t.e t.n = toProcess t.e := by simp [proCount, hu, hm]
          rw [this]
          apply Nat.le_of_not_lt
          intro hlt
          obtain ⟨r, hr⟩ := transform_ub_of_short wf hce hu hm hn hlt op mem
          rw [hr] at hd
          exact hd
    · have : ReachesAlignment t.e t.n := by
        intro ha hb hc hd
        exfalso; apply hu
        simp only [useAligned, ha, Bool.true_and]
        exact (prologuePossible_iff t.e).2 ⟨hb, hc, hd⟩
      exact (reaches_iff wf).1 this
  · intro hr
    by_cases ha : t.e.pol.assumeMatchingSize = true ∧ ¬ t.e.size ∣ t.n
    · rw [transform_assume_traps ha.1 ha.2]; trivial
    · rw [transform_eq ok wf hce hf ((reaches_iff wf).1 hr) (by simp [hpt])
        (fun h => Classical.byContradiction fun h' => ha ⟨h, h'⟩) op]
      trivial

/-- **C12 (no `prefer_aligned`).** All other policies are safe on all valid ranges. -/
theorem transform_safe {t : TEnv} {mem : List α} (ok : RangesOk t mem) (wf : t.e.WF)
    (hce : t.e.constEval = false) (hpt : t.e.strictPtr = false) (hf : t.e.Fits t.n)
    (hpol : t.e.pol.prefersAligned = false) (op : VecOp α α) : (transform t op mem).Defined :=
  (transform_defined_iff ok wf hce hpt hf op).2 (fun h => by rw [hpol] at h; simp at h)

/-- **C13.** The constant-evaluated branch maps the inputs, too, for every width and every length (contrast
`constForEach_width2_visits_last_twice`), and returns the end of the output range. -/
theorem constTransform_maps {t : TEnv} {mem : List α} (ok : RangesOk t mem) (hs : 0 < t.e.size)
    (hce : t.e.constEval = true) (hpt : t.e.strictPtr = false)
    (ha : t.e.pol.assumeMatchingSize = true → t.e.size ∣ t.n)
    (op : VecOp α α) (g : List α → α) (hg : LaneWise op g) :
    ∃ mem', transform t op mem = .ok ((t.n : Int), mem') ∧ Mapped t g mem mem' :=
  ⟨_, transform_const_eq ok hs hce (by simp [hpt]) ha op, mapped_writeAt ok hg _ (constWidthsOf_sum _ _)⟩

/-- A mapped memory is determined by the original one. -/
theorem Spec.Mapped.unique {t : TEnv} {g : List α → α} {mem m1 m2 : List α} (h1 : Mapped t g mem m1)
    (h2 : Mapped t g mem m2) : m1 = m2 := by
  apply List.ext_getElem?
  intro j
  by_cases h : j < t.out ∨ t.out + t.n ≤ j
  · rw [h1.2.2 j h, h2.2.2 j h]
  · have : j = t.out + (j - t.out) := by omega
    rw [this, h1.2.1 _ (by omega), h2.2.1 _ (by omega)]

/-- **C13.** Constant evaluation and run time give the same result. -/
theorem transform_const_agrees {t : TEnv} {mem : List α} (ok : RangesOk t mem) (wf : t.e.WF)
    (hpt : t.e.strictPtr = false) (hf : t.e.Fits t.n)
    (hr : ReachesAlignment t.e t.n) (op : VecOp α α) (g : List α → α) (hg : LaneWise op g) :
    transform { t with e := { t.e with constEval := true } } op mem =
      transform { t with e := { t.e with constEval := false } } op mem := by
  by_cases ha : t.e.pol.assumeMatchingSize = true ∧ ¬ t.e.size ∣ t.n
  · rw [transform_assume_traps (t := { t with e := { t.e with constEval := true } }) ha.1 ha.2,
      transform_assume_traps (t := { t with e := { t.e with constEval := false } }) ha.1 ha.2]
  · have ha' : t.e.pol.assumeMatchingSize = true → t.e.size ∣ t.n :=
      fun h => Classical.byContradiction fun h' => ha ⟨h, h'⟩
    have wf' : Env.WF { t.e with constEval := false } :=
      ⟨wf.size_pos, wf.sz_pos, wf.al_pos, wf.al_natural, wf.al_mono, wf.al_pow, wf.al_le, wf.addr_dvd,
        wf.pol_reachable⟩
    obtain ⟨m1, h1, k1⟩ := constTransform_maps (t := { t with e := { t.e with constEval := true } })
      ⟨ok.ins_ne, ok.ins_le, ok.out_le, ok.alias⟩ wf.size_pos rfl hpt ha' op g hg
    obtain ⟨m2, h2, k2⟩ := transform_maps (t := { t with e := { t.e with constEval := false } })
      ⟨ok.ins_ne, ok.ins_le, ok.out_le, ok.alias⟩ wf' rfl hpt hf hr ha' op g hg
    rw [h1, h2]
    exact congrArg (fun m => Outcome.ok ((t.n : Int), m)) (Mapped.unique k1 k2)

/-! ### the theorems are about something -/

/-- Lane-wise addition of any number of arguments. -/
def sumOp : VecOp Nat Nat where
  call args := (List.range (args.headD []).length).map fun i => (args.filterMap (·[i]?)).sum
  shape w args hne hl := by
    cases args with
    | nil => exact absurd rfl hne
    | cons a as => simp [hl a (by simp)]

theorem sumOp_laneWise : LaneWise sumOp List.sum := by
  intro w args hne hl
  cases args with
  | nil => exact absurd rfl hne
  | cons a as => simp [sumOp, hl a (by simp)]

/-- Two inputs, the output overlapping the first one from below. -/
def exampleT (pol : List PolicyOption) : TEnv := ⟨{ exampleEnv with pol := ⟨pol⟩ }, [1, 12], 0, 11⟩

example : RangesOk (exampleT [.preferAligned]) (List.range 23) :=
  ⟨by decide, by decide, by decide, by decide⟩
example : (exampleT [.preferAligned]).e.WF :=
  libstdcxx_wf _ (by decide) ⟨2, rfl⟩ rfl (by decide) ⟨[.preferAligned], by decide⟩ (by decide)
example : ReachesAlignment (exampleT [.preferAligned]).e 11 := by
  rw [reaches_iff (libstdcxx_wf _ (by decide) ⟨2, rfl⟩ rfl (by decide) ⟨[.preferAligned], by decide⟩ (by decide))]
  decide
example : transform (exampleT [.preferAligned]) sumOp (List.range 23) =
    .ok (11, [13, 15, 17, 19, 21, 23, 25, 27, 29, 31, 33] ++ (List.range 23).drop 11) := by decide +kernel
example : transform (exampleT [.unrollBy 2]) sumOp (List.range 23) =
    .ok (11, [13, 15, 17, 19, 21, 23, 25, 27, 29, 31, 33] ++ (List.range 23).drop 11) := by decide +kernel

/-- **C10 (the condition on overlap is needed).** If the output starts inside the input, `transform` does not
map: it reads elements it has already overwritten. -/
theorem transform_forward_overlap :
    ∃ (t : TEnv) (mem : List Nat), t.e.WF ∧ t.ins = [0] ∧ t.out = 1 ∧ t.n = 5 ∧ mem.length = 6 ∧
      ∃ mem', transform t sumOp mem = .ok (5, mem') ∧ ¬ Mapped t List.sum mem mem' := by
  refine ⟨⟨{ exampleEnv with pol := ⟨[]⟩ }, [0], 1, 5⟩, [1, 2, 3, 4, 5, 6], ?_, rfl, rfl, rfl, rfl,
    [1, 1, 2, 3, 4, 4], by decide +kernel, ?_⟩
  · exact libstdcxx_wf _ (by decide) ⟨2, rfl⟩ rfl (by decide) ⟨[], by decide⟩ (by decide)
  · rintro ⟨_, h, _⟩
    have := h 4 (by decide)
    revert this
    decide

/-! ## The theorems applied to concrete data -/

private theorem exWf : (exampleT [.preferAligned]).e.WF := libstdcxx_wf _ (by decide) ⟨2, rfl⟩ rfl (by decide) ⟨[.preferAligned], by decide⟩ (by decide)
private theorem exOk : RangesOk (exampleT [.preferAligned]) (List.range 23) := ⟨by decide, by decide, by decide, by decide⟩
private theorem exReach : ReachesAlignment (exampleT [.preferAligned]).e (exampleT [.preferAligned]).n := (reaches_iff exWf).2 (by decide)
private theorem exFits : (exampleT [.preferAligned]).e.Fits (exampleT [.preferAligned]).n := by unfold Env.Fits; decide

example := transform_maps exOk exWf rfl rfl exFits exReach (by decide) sumOp _ sumOp_laneWise
example := transform_chunks exOk exWf rfl rfl exFits exReach (by decide) sumOp
example := transform_assume_traps (t := exampleT [.assumeMatchingSize]) rfl (by decide) sumOp (List.range 23)
example := transform_defined_iff exOk exWf rfl rfl exFits sumOp
example := transform_safe (t := exampleT [.unrollBy 2]) (mem := List.range 23) ⟨by decide, by decide, by decide, by decide⟩
  (libstdcxx_wf _ (by decide) ⟨2, rfl⟩ rfl (by decide) ⟨[.unrollBy 2], by decide⟩ (by decide)) rfl rfl (by unfold Env.Fits; decide) (by decide) sumOp
example := constTransform_maps (t := { exampleT [.preferAligned] with e := { (exampleT [.preferAligned]).e with constEval := true } }) (mem := List.range 23)
  ⟨by decide, by decide, by decide, by decide⟩ (by decide) rfl rfl (by decide) sumOp _ sumOp_laneWise
example := transform_const_agrees exOk exWf rfl exFits exReach sumOp _ sumOp_laneWise

end Vir
