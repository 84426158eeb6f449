import Verif.Lemmas.ForEachStruct
import Verif.Lemmas.CallCount
import Verif.Props.ForEachStruct

/-! Lemmas about the pieces in which `for_each` goes through an array of structs. -/

namespace Vir.ForEachStruct
open Vir.ForEach Vir.Spec Vir.Simdize

variable {σ α β : Type} {c : Nat}

/-- Applies `h` to consecutive pieces of the given lengths. -/
def mapPieces (h : List β → List β) : List Nat → List β → List β
  | [], _ => []
  | w :: ws, xs => h (xs.take w) ++ mapPieces h ws (xs.drop w)

theorem mapPieces_append (h : List β → List β) (ws ws' : List Nat) (xs : List β) :
    mapPieces h (ws ++ ws') xs = mapPieces h ws xs ++ mapPieces h ws' (xs.drop ws.sum) := by
  induction ws generalizing xs with
  | nil => simp [mapPieces]
  | cons w ws ih => simp [mapPieces, ih, List.drop_drop]

theorem mapPieces_chunks (h : List β → List β) (w k : Nat) (xs : List β) :
    mapPieces h (List.replicate k w) xs = ((chunks w k xs).map h).flatten := by
  induction k generalizing xs with
  | zero => simp [mapPieces, chunks]
  | succ k ih => simp [List.replicate_succ, mapPieces, chunks, ih]

/-- The widths of the simdized structs that the invocations get. -/
def widthsOf (cs : List Call) : List Nat := cs.flatMap fun c => List.replicate c.k c.w

theorem run_mapPieces (f : Callable σ β) (h : List β → List β) (hf : ∀ s args, (f.call s args).2 = args.map h) (cs : List Call) (s : σ)
    (xs : List β) (hn : Spec.elems cs = xs.length) : (run f true cs s xs).2 = mapPieces h (widthsOf cs) xs := by
  induction cs generalizing s xs with
  | nil =>
    have : xs = [] := List.eq_nil_of_length_eq_zero hn.symm
    subst this; simp [run, widthsOf, mapPieces]
  | cons k cs ih =>
    rw [elems_cons] at hn
    have h1 := ih (f.call s (chunks k.w k.k xs)).1 (xs.drop k.elems) (by simp; omega)
    unfold run
    simp only [if_true, hf, h1]
    rw [show widthsOf (k :: cs) = List.replicate k.k k.w ++ widthsOf cs by simp [widthsOf], mapPieces_append, mapPieces_chunks]
    congr 2
    simp [Call.elems, Nat.mul_comm]

theorem widthsOf_callsOf {e : Env} (hs : 0 < e.size) {n : Nat} (hp : proCount e n = 0) :
    widthsOf (callsOf e n) = List.replicate (n / e.size) e.size ++ bitsDesc (n % e.size) := by
  have hsing (ws : List Nat) : widthsOf (singles ws) = ws := by
    induction ws with
    | nil => rfl
    | cons w ws ih =>
      have : widthsOf (singles (w :: ws)) = w :: widthsOf (singles ws) := by simp [widthsOf, singles]
      rw [this, ih]
  have hrep (m w k : Nat) : widthsOf (List.replicate m ⟨w, k⟩) = List.replicate (m * k) w := by
    induction m with
    | zero => simp [widthsOf]
    | succ m ih =>
      have : widthsOf (List.replicate (m + 1) ⟨w, k⟩) = List.replicate k w ++ widthsOf (List.replicate m ⟨w, k⟩) := by
        simp [widthsOf, List.replicate_succ]
      rw [this, ih, List.replicate_append_replicate]
      congr 1; rw [Nat.succ_mul]; omega
  have happ (a b : List Call) : widthsOf (a ++ b) = widthsOf a ++ widthsOf b := by simp [widthsOf]
  unfold callsOf
  by_cases h0 : n = 0
  · subst h0; simp [widthsOf]
  rw [if_neg h0]
  simp only [hp, Nat.sub_zero, happ, hsing, hrep]
  rw [show bitsAsc 0 = [] by decide, List.nil_append, ← List.append_assoc, List.replicate_append_replicate, Nat.mul_one]
  congr 2
  have hq : unrolledIters e n * (e.size * unroll e) ≤ n := by
    unfold unrolledIters; split
    · exact Nat.div_mul_le_self _ _
    · simp
  rw [show unrolledIters e n * (e.size * unroll e) = e.size * (unrolledIters e n * unroll e) by ac_rfl] at hq ⊢
  have := Nat.sub_mul_div n e.size (unrolledIters e n * unroll e)
  rw [this]
  have := (Nat.le_div_iff_mul_le hs).2 (by rw [Nat.mul_comm]; exact hq : unrolledIters e n * unroll e * e.size ≤ n)
  omega

/-- What the callable does to the structs of one argument, if it treats its arguments separately. -/
def pieceOf (F : Family) (zero : α) (h : List (List α) → List (List α)) (x : List (Vector α c)) : List (Vector α c) :=
  lanesOf c zero x.length (h (members (reorder (F.env x.length) x)))

theorem onStructs_piece (F : Family) (zero : α) (f : SCallable σ α c) (h : List (List α) → List (List α))
    (hf : ∀ s vs, (f.call s vs).2 = vs.map h) (s : σ) (args : List (List (Vector α c))) :
    ((onStructs F zero f).call s args).2 = args.map (pieceOf F zero h) := by
  unfold onStructs
  simp only [hf]
  apply List.ext_getElem
  · simp
  · intro j h1 h2
    have hj : j < args.length := by simpa using h1
    simp [pieceOf, hj]

theorem onStructs_lanes {F : Family} (hF : F.WF c) (zero : α) (f : SCallable σ α c) (g : Vector α c → Vector α c)
    (hg : ∀ s (css : List (List (Vector α c))), (f.call s (css.map members)).2 = css.map fun cs => members (cs.map g)) (s : σ)
    (args : List (List (Vector α c))) :
    ((onStructs F zero f).call s args).2 = args.map fun x => (reorder (F.env x.length) x).map g := by
  have := hg s (args.map fun x => reorder (F.env x.length) x)
  rw [List.map_map, List.map_map] at this
  unfold onStructs
  dsimp only
  apply List.ext_getElem
  · simp
  · intro j h1 h2
    have hj : j < args.length := by simpa using h1
    simp only [List.getElem_map, List.getElem_range]
    rw [getD_lt hj]
    have h3 : (f.call s (args.map fun x => members (reorder (F.env x.length) x))).2.getD j []
        = members ((reorder (F.env args[j].length) args[j]).map g) := by
      have h4 : (f.call s (args.map fun x => members (reorder (F.env x.length) x))).2 = _ := this
      rw [h4]; simp [hj]
    rw [h3]
    have := lanesOf_members hF.pos zero ((reorder (F.env args[j].length) args[j]).map g)
    rw [List.length_map, reorder_length] at this
    exact this

theorem forEachStruct_pieces {e : Env} {A : Nat} {F : Family} (hE : StructRange e A) (hF : F.WF c) (hce : e.constEval = false)
    (hpt : e.strictPtr = false) (zero : α) (junk : Nat → α) (f : SCallable σ α c) (p : List (Vector α c) → List (Vector α c))
    (hf : ∀ s args, ((onStructs F zero f).call s args).2 = args.map p) (s : σ) (xs : List (Vector α c)) (hn : e.Fits xs.length)
    (ha : e.pol.assumeMatchingSize = true → e.size ∣ xs.length) :
    ∃ s', forEach e F zero junk true f s (flat xs) =
      .ok (s', flat (mapPieces p (List.replicate (xs.length / e.size) e.size ++ bitsDesc (xs.length % e.size)) xs)) := by
  have hp := (reaches_iff hE.wf).1 (hE.reaches xs.length)
  have h0 : proCount e xs.length = 0 := startsAligned_proCount (.inl (by rw [hE.align]; exact hE.align_addr)) _
  have h := forEach_eq_run hE.wf hce hn hp (by simp [hpt]) ha true (onStructs F zero f) s xs rfl
  have h2 := (sim_struct (junk := junk) hF hE.aligned hE.size_pos true f s xs).of_ok h
  refine ⟨_, h2.trans (congrArg Outcome.ok (Prod.ext rfl ?_))⟩
  simp only [flatSt]
  rw [ run_mapPieces _ p hf _ _ _ (elems_callsOf hE.size_pos hp), widthsOf_callsOf hE.size_pos h0]

/-! ## Pieces of eight -/

theorem mapPieces_map {p : List β → List β} {g : β → β} {ws : List Nat} (hp : ∀ w ∈ ws, ∀ x : List β, x.length = w → p x = x.map g)
    (xs : List β) (hn : ws.sum ≤ xs.length) : mapPieces p ws xs = (xs.take ws.sum).map g := by
  induction ws generalizing xs with
  | nil => simp [mapPieces]
  | cons w ws ih =>
    rw [List.sum_cons] at hn
    rw [mapPieces, hp w (by simp) _ (by simp; omega), ih (fun v hv => hp v (by simp [hv])) _ (by simp; omega), ← List.map_append,
      List.sum_cons, List.take_add]

theorem mapPieces_length {p : List β → List β} (hp : ∀ x, (p x).length = x.length) {ws : List Nat} (xs : List β) (hn : ws.sum ≤ xs.length) :
    (mapPieces p ws xs).length = ws.sum := by
  induction ws generalizing xs with
  | nil => simp [mapPieces]
  | cons w ws ih =>
    rw [List.sum_cons] at hn
    rw [mapPieces, List.length_append, hp, ih _ (by simp; omega), List.sum_cons, List.length_take, Nat.min_eq_left (by omega)]

theorem mapPieces_blocks {p : List β → List β} (hp : ∀ x, (p x).length = x.length) {w q : Nat} (xs : List β) (hn : q * w ≤ xs.length)
    {b j : Nat} (hb : b < q) (hj : j < w) : (mapPieces p (List.replicate q w) xs)[b * w + j]? = (p ((xs.drop (b * w)).take w))[j]? := by
  have h1 : q = b + (1 + (q - b - 1)) := by omega
  have hm : (b + 1) * w ≤ q * w := Nat.mul_le_mul_right _ hb
  rw [Nat.succ_mul] at hm
  rw [h1, ← List.replicate_append_replicate, ← List.replicate_append_replicate, mapPieces_append]
  have hs : (List.replicate b w).sum = b * w := by simp
  rw [List.getElem?_append_right (by rw [mapPieces_length hp _ (by omega), hs]; omega), mapPieces_length hp _ (by omega), hs,
    Nat.add_sub_cancel_left, List.replicate_one, List.singleton_append, mapPieces, List.getElem?_append_left]
  rw [hp]; simp; omega

theorem bitsDesc_eight (r : Nat) : ∃ hi lo, bitsDesc r = hi ++ ((if 8 ≤ r % 16 then [8] else []) ++ lo) ∧ hi.sum = r / 16 * 16 ∧ lo.sum = r % 8 ∧
    8 ∉ hi ∧ 8 ∉ lo := by
  have hlt : r < 2 ^ (r.log2 + 4 + 1) := by
    have : r < 2 ^ (r.log2 + 1) := lt_two_pow_log2_succ r
    have h2 : 2 ^ (r.log2 + 1) ≤ 2 ^ (r.log2 + 4 + 1) := Nat.pow_le_pow_right (by omega) (by omega)
    omega
  have split : ∀ k, ∃ hi, descBits r (k + 4) = hi ++ descBits r 4 ∧ 8 ∉ hi := by
    intro k
    induction k with
    | zero => exact ⟨[], by simp, by simp⟩
    | succ k ih =>
      obtain ⟨hi, h1, h2⟩ := ih
      refine ⟨(if r.testBit (k + 4) then [2 ^ (k + 4)] else []) ++ hi, ?_, ?_⟩
      · rw [show k + 1 + 4 = (k + 4) + 1 by omega, descBits, h1, List.append_assoc]
      · rw [List.mem_append]
        rintro (h | h)
        · split at h
          · rw [List.mem_singleton] at h
            have : 2 ^ (0 + 4) ≤ 2 ^ (k + 4) := Nat.pow_le_pow_right (by omega) (by omega)
            omega
          · simp at h
        · exact h2 h
  obtain ⟨hi, h1, h2⟩ := split (r.log2 + 1)
  have hd : descBits r 4 = (if 8 ≤ r % 16 then [8] else []) ++ descBits r 3 := by
    rw [descBits]
    have : r.testBit 3 = decide (8 ≤ r % 16) := by
      rw [Nat.testBit_eq_decide_div_mod_eq]
      have : (r / 2 ^ 3 % 2 = 1) ↔ 8 ≤ r % 16 := by omega
      simp only [this]
    simp [this]
  refine ⟨hi, descBits r 3, ?_, ?_, by rw [descBits_sum], h2, ?_⟩
  · rw [← bitsDesc_eq r (r.log2 + 4 + 1) hlt, show r.log2 + 4 + 1 = r.log2 + 1 + 4 by omega, h1, hd]
  · have hs : (descBits r (r.log2 + 1 + 4)).sum = hi.sum + (descBits r 4).sum := by rw [h1, List.sum_append]
    rw [descBits_sum, descBits_sum, Nat.mod_eq_of_lt (by rw [show r.log2 + 1 + 4 = r.log2 + 4 + 1 by omega]; exact hlt)] at hs
    omega
  · intro h
    obtain ⟨j, hj, h8, _⟩ := mem_descBits h
    have : 2 ^ j ≤ 2 ^ 2 := Nat.pow_le_pow_right (by omega) (by omega)
    omega

end Vir.ForEachStruct
