import Verif.Lemmas.Simd
import Verif.Lemmas.SimdOps
import Verif.Props.Permute
import Verif.Model.Simdize
import Verif.Lemmas.Bits
import Mathlib.Tactic.Push

/-!
# Lemmas about the loads and stores of simdized structs
-/

namespace Vir.Simdize
open Vir.Simd Vir.Permute

variable {α : Type}

/-- `r` has `n` lanes, given by `f`. -/
def Vec (r : List α) (n : Nat) (f : Nat → Option α) : Prop := r.length = n ∧ ∀ i, i < n → r[i]? = f i

theorem Vec.congr {r : List α} {n : Nat} {f g : Nat → Option α} (h : Vec r n f) (hfg : ∀ i, i < n → f i = g i) : Vec r n g :=
  ⟨h.1, fun i hi => (h.2 i hi).trans (hfg i hi)⟩

theorem memcpyLoad_vec {mem : List α} {start n : Nat} (h : start + n ≤ mem.length) :
    ∃ r, memcpyLoad mem start n = .ok r ∧ Vec r n fun i => mem[start + i]? := by
  have := load_eq (mem := mem) (off := start) (n := n) h
  refine ⟨_, this, by simp; omega, fun i hi => ?_⟩
  rw [List.getElem?_take, if_pos hi, List.getElem?_drop]

theorem memcpyLoad_ub {mem : List α} {start n : Nat} (h : mem.length < start + n) (hn : 0 < n) :
    memcpyLoad mem start n = .ub .oob := by
  refine gen_ub (k := n - 1) (fun j _ => ?_) (by omega) ?_
  · unfold rd
    cases mem[start + j]? with
    | none => exact .inr rfl
    | some x => exact .inl ⟨x, rfl⟩
  · unfold rd
    rw [List.getElem?_eq_none (by omega)]

theorem memcpyStore_eq {mem v : List α} {start : Nat} (h : start + v.length ≤ mem.length) :
    memcpyStore mem start v = .ok (mem.take start ++ v ++ mem.drop (start + v.length)) := by
  refine forUp_lanes rfl h fun i hi d hd _ => ?_
  rw [rd_eq hi, Outcome.bind_ok, wr, if_pos (by omega)]

theorem memcpyStore_getElem? {mem v : List α} {start : Nat} (h : start + v.length ≤ mem.length) :
    ∃ mem', memcpyStore mem start v = .ok mem' ∧ mem'.length = mem.length ∧
      (∀ i : Nat, i < v.length → mem'[start + i]? = v[i]?) ∧
      ∀ j : Nat, (j < start ∨ start + v.length ≤ j) → mem'[j]? = mem[j]? := by
  refine ⟨_, memcpyStore_eq h, by simp; omega, fun i hi => ?_, fun j hj => ?_⟩
  · have h1 : (mem.take start).length = start := by simp; omega
    rw [List.append_assoc, List.getElem?_append_right (by omega), h1, Nat.add_sub_cancel_left, List.getElem?_append_left hi]
  · have h1 : (mem.take start).length = start := by simp; omega
    rcases hj with hj | hj
    · rw [List.append_assoc, List.getElem?_append_left (by omega), List.getElem?_take, if_pos hj]
    · rw [List.getElem?_append_right (by simp; omega), List.getElem?_drop]
      congr 1
      simp
      omega

theorem memcpyStore_ub {mem v : List α} {start : Nat} (h : mem.length < start + v.length) (hv : 0 < v.length) :
    ∃ u, memcpyStore mem start v = .ub u := by
  refine forUp_some_ub (k := v.length - 1) (fun s => s.length = mem.length) rfl (fun j s hj hs => ?_) (by omega)
    (fun s hs => ?_)
  · rw [rd_eq hj, Outcome.bind_ok, wr]
    split
    · exact .inl ⟨_, rfl, by simp [hs]⟩
    · exact .inr ⟨_, rfl⟩
  · rw [rd_eq (by omega), Outcome.bind_ok, wr, if_neg (by omega)]
    exact ⟨_, rfl⟩

theorem shuffle_vec {junk : Nat → α} {n N : Nat} {a b : List α} {f g : Nat → Option α} {idx : Nat → Int} (ha : Vec a N f)
    (hb : Vec b N g) (h : ∀ i, i < n → idx i = -1 ∨ (0 ≤ idx i ∧ idx i < 2 * N)) :
    ∃ r, shuffle junk n a b idx = .ok r ∧ Vec r n fun i =>
      if idx i = -1 then some (junk i) else if (idx i).toNat < N then f (idx i).toNat else g ((idx i).toNat - N) := by
  obtain ⟨r, h1, h2, h3⟩ := gen_choose (f := fun i => shuffleLane (.ok (junk i)) a b (idx i))
    (P := fun i x => (if idx i = -1 then some (junk i) else if (idx i).toNat < N then f (idx i).toNat
      else g ((idx i).toNat - N)) = some x) (n := n) fun i hi => by
    unfold shuffleLane
    rcases h i hi with h | ⟨h0, hlt⟩
    · exact ⟨junk i, by rw [if_pos h], by rw [if_pos h]⟩
    · rw [if_neg (by omega), if_neg (by omega)]
      have hlen : (idx i).toNat < (a ++ b).length := by rw [List.length_append, ha.1, hb.1]; omega
      refine ⟨(a ++ b)[(idx i).toNat], by rw [List.getElem?_eq_getElem hlen], ?_⟩
      rw [if_neg (by omega), ← List.getElem?_eq_getElem hlen]
      by_cases hc : (idx i).toNat < N
      · rw [if_pos hc, ← ha.2 _ hc, List.getElem?_append_left (by rw [ha.1]; exact hc)]
      · rw [if_neg hc, List.getElem?_append_right (by rw [ha.1]; omega), ha.1, hb.2 _ (by omega)]
  exact ⟨r, h1, h2, fun i hi => by
    have := h3 i r[i] (List.getElem?_eq_getElem (by omega))
    exact (List.getElem?_eq_getElem (by omega)).trans this.symm⟩

theorem blend_vec {junk : Nat → α} {N : Nat} {indexes : List Nat} {a b : List α} {f g : Nat → Option α} (ha : Vec a N f)
    (hb : Vec b N g) (h : indexes.length ≤ N ∧ ∀ i ∈ indexes, i ≤ N) :
    ∃ r, blend junk indexes a b = .ok r ∧ Vec r N fun i => if i ∈ indexes then g i else f i := by
  unfold blend
  rw [ha.1, if_pos h]
  obtain ⟨r, h1, h2⟩ := shuffle_vec (junk := junk) (n := N) (idx := fun i => if i ∈ indexes then (i : Int) + N else i) ha hb
    fun i hi => by
      right
      split <;> omega
  refine ⟨r, h1, h2.congr fun i hi => ?_⟩
  by_cases hm : i ∈ indexes
  · simp only [hm, if_true]
    rw [if_neg (by omega), if_neg (by omega)]
    congr 1; omega
  · simp only [hm, if_false]
    rw [if_neg (by omega), if_pos (by omega)]
    congr 1

theorem rotate_vec {P : PEnv} {zero : α} {junk : Nat → Outcome α} {v : List α} {f : Nat → Option α} {o : Nat} (hv : Vec v 8 f)
    (hp : P.sizeR = 8 * P.sizeT) (hfl : P.isFloat = true → P.sizeT = 4) (ho : o < 8) :
    ∃ r, simdPermute P zero junk [] 0 (rotate o) (some (o : Int)) v = .ok r ∧ Vec r 8 fun i => f ((i + o) % 8) := by
  obtain ⟨r, h1, h2, h3⟩ := rotate_spec_partial P zero junk v ⟨by rw [hv.1]; omega, by rw [hv.1]; omega,
    by rw [if_pos rfl, hv.1]; exact hp, hfl⟩ o (by omega) (by rw [hv.1]; omega) (.inl (by omega))
    (.inr (.inr (.inr (by omega))))
  refine ⟨r, h1, by rw [h2, hv.1], fun i hi => ?_⟩
  show _ = f ((i + o) % 8)
  rw [h3 i (by rw [hv.1]; exact hi), hv.1, ← hv.2 _ (Nat.mod_lt _ (by omega))]
  congr 1

/-- The member vectors `r` have in lane `i` the members of struct `src i` of the array. -/
def Members (count n : Nat) (r : List (List α)) (mem : List α) (src : Nat → Nat) : Prop :=
  r.length = count ∧ ∀ m, m < count → ∃ v, r[m]? = some v ∧ Vec v n fun i => mem[src i * count + m]?

theorem members2 {n : Nat} {mem a b : List α} {src : Nat → Nat} (ha : Vec a n fun i => mem[src i * 2]?)
    (hb : Vec b n fun i => mem[src i * 2 + 1]?) : Members 2 n [a, b] mem src := by
  refine ⟨rfl, fun m hm => ?_⟩
  have : m = 0 ∨ m = 1 := by omega
  rcases this with rfl | rfl
  · exact ⟨a, rfl, ha⟩
  · exact ⟨b, rfl, hb⟩

theorem members3 {n : Nat} {mem a b c : List α} {src : Nat → Nat} (ha : Vec a n fun i => mem[src i * 3]?)
    (hb : Vec b n fun i => mem[src i * 3 + 1]?) (hc : Vec c n fun i => mem[src i * 3 + 2]?) :
    Members 3 n [a, b, c] mem src := by
  refine ⟨rfl, fun m hm => ?_⟩
  have : m = 0 ∨ m = 1 ∨ m = 2 := by omega
  rcases this with rfl | rfl | rfl
  · exact ⟨a, rfl, ha⟩
  · exact ⟨b, rfl, hb⟩
  · exact ⟨c, rfl, hc⟩

theorem loadGeneric_members {mem : List α} {n count off : Nat} (h : (off + n) * count ≤ mem.length) :
    ∃ r, loadGeneric n count mem off = .ok r ∧ Members count n r mem (off + ·) := by
  obtain ⟨r, h1, h2, h3⟩ := gen_choose (f := fun m => gen n fun i => rd mem ((off + i) * count + m))
    (P := fun m v => Vec v n fun i => mem[(off + i) * count + m]?) (n := count) fun m hm => by
    obtain ⟨v, h1, h2, h3⟩ := gen_choose (f := fun i => rd mem ((off + i) * count + m))
      (P := fun i x => mem[(off + i) * count + m]? = some x) (n := n) fun i hi => by
      have hlt : (off + i) * count + m < mem.length := by
        have : (off + i + 1) * count ≤ (off + n) * count := Nat.mul_le_mul_right _ (by omega)
        have h' : (off + i + 1) * count = (off + i) * count + count := by rw [Nat.add_mul, Nat.one_mul]
        omega
      exact ⟨_, rd_eq hlt, List.getElem?_eq_getElem hlt⟩
    exact ⟨v, h1, h2, fun i hi => by
      have := h3 i v[i] (List.getElem?_eq_getElem (by omega))
      exact (List.getElem?_eq_getElem (by omega)).trans this.symm⟩
  exact ⟨r, h1, h2, fun m hm => ⟨r[m], List.getElem?_eq_getElem _, h3 m _ (List.getElem?_eq_getElem (by omega))⟩⟩

theorem load2_members {junk : Nat → α} {mem : List α} {n off : Nat} (hn : n % 2 = 0) (h : (off + n) * 2 ≤ mem.length) :
    ∃ r, load2 junk n mem off = .ok r ∧ Members 2 n r mem (off + ·) := by
  unfold load2
  obtain ⟨x0, e0, h0⟩ := memcpyLoad_vec (mem := mem) (start := off * 2) (n := n) (by omega)
  obtain ⟨x1, e1, h1⟩ := memcpyLoad_vec (mem := mem) (start := (off + n / 2) * 2) (n := n) (by omega)
  obtain ⟨a, ea, ha⟩ := shuffle_vec (junk := junk) (n := n / 2 + n / 2)
    (idx := fun i => if i < n / 2 then (i : Int) * 2 else n + (i - (n / 2 : Nat)) * 2) h0 h1 fun i hi => by
      right
      split <;> omega
  obtain ⟨b, eb, hb⟩ := shuffle_vec (junk := junk) (n := n / 2 + n / 2)
    (idx := fun i => if i < n / 2 then 1 + (i : Int) * 2 else 1 + n + (i - (n / 2 : Nat)) * 2) h0 h1 fun i hi => by
      right
      split <;> omega
  have hn2 : n / 2 + n / 2 = n := by omega
  simp only [e0, e1, ea, eb, Outcome.bind_ok]
  rw [hn2] at ha hb
  refine ⟨_, rfl, members2 (ha.congr fun i hi => ?_) (hb.congr fun i hi => ?_)⟩
  all_goals
    show ite _ _ _ = _
    by_cases hc : i < n / 2
    · rw [if_pos hc, if_neg (by omega), if_pos (by omega)]
      congr 1; omega
    · rw [if_neg hc, if_neg (by omega)]
      split
      · congr 1; omega
      · congr 1; omega

theorem gather3_vec {junk : Nat → α} {n m : Nat} {x0 x1 x2 : List α} {g : Nat → Option α} (hn : n % 3 ≠ 0) (hm : m < 3)
    (h0 : Vec x0 n fun i => g i) (h1 : Vec x1 n fun i => g (n + i)) (h2 : Vec x2 n fun i => g (2 * n + i)) :
    ∃ r, gather3 junk n m x0 x1 x2 = .ok r ∧ Vec r n fun i => g (i * 3 + m) := by
  unfold gather3
  obtain ⟨t, et, ht⟩ := shuffle_vec (junk := junk) (n := n)
    (idx := fun i => if i % 3 = m then (i : Int) else if (i + n) % 3 = m then (i : Int) + n else -1) h0 h1 fun i hi => by
      split
      · right; omega
      · split
        · right; omega
        · left; rfl
  have ht' : Vec t n fun i => if i % 3 = m then g i else if (i + n) % 3 = m then g (n + i) else some (junk i) :=
    ht.congr fun i hi => by
      by_cases h1 : i % 3 = m
      · simp only [h1, if_true]
        rw [if_neg (by omega), if_pos (by omega)]
        congr 1
      · by_cases h2 : (i + n) % 3 = m
        · simp only [h1, h2, if_true, if_false]
          rw [if_neg (by omega), if_neg (by omega)]
          congr 1; omega
        · simp only [h1, h2, if_true, if_false]
  obtain ⟨r, er, hr⟩ := shuffle_vec (junk := junk) (n := n)
    (idx := fun i => if i * 3 + m < n then (i : Int) * 3 + m else (i : Int) * 3 - n + m) ht' h2 fun i hi => by
      right
      split <;> omega
  simp only [et, Outcome.bind_ok]
  refine ⟨r, er, hr.congr fun i hi => ?_⟩
  by_cases hc : i * 3 + m < n
  · have e : ((i : Int) * 3 + m).toNat = i * 3 + m := by omega
    simp only [hc, if_true, e]
    rw [if_neg (by omega), if_pos (by omega)]
  · have e : ((i : Int) * 3 - n + m).toNat = i * 3 + m - n := by omega
    simp only [hc, if_false, e]
    rw [if_neg (by omega)]
    by_cases hd : i * 3 + m - n < n
    · rw [if_pos hd, if_neg (by omega), if_pos (by omega)]
      congr 1; omega
    · rw [if_neg hd]
      congr 1; omega

theorem load3_members {junk : Nat → α} {mem : List α} {n off : Nat} (hn : n % 3 ≠ 0) (h : (off + n) * 3 ≤ mem.length) :
    ∃ r, load3 junk n mem off = .ok r ∧ Members 3 n r mem (off + ·) := by
  unfold load3
  obtain ⟨x0, e0, h0⟩ := memcpyLoad_vec (mem := mem) (start := off * 3) (n := n) (by omega)
  obtain ⟨x1, e1, h1⟩ := memcpyLoad_vec (mem := mem) (start := off * 3 + n) (n := n) (by omega)
  obtain ⟨x2, e2, h2⟩ := memcpyLoad_vec (mem := mem) (start := off * 3 + 2 * n) (n := n) (by omega)
  have h1' : Vec x1 n fun i => mem[off * 3 + (n + i)]? := h1.congr fun i _ => by rw [Nat.add_assoc]
  have h2' : Vec x2 n fun i => mem[off * 3 + (2 * n + i)]? := h2.congr fun i _ => by rw [Nat.add_assoc]
  obtain ⟨a, ea, ha⟩ := gather3_vec (junk := junk) (m := 0) (g := fun k => mem[off * 3 + k]?) hn (by omega) h0 h1' h2'
  obtain ⟨b, eb, hb⟩ := gather3_vec (junk := junk) (m := 1) (g := fun k => mem[off * 3 + k]?) hn (by omega) h0 h1' h2'
  obtain ⟨c, ec, hc⟩ := gather3_vec (junk := junk) (m := 2) (g := fun k => mem[off * 3 + k]?) hn (by omega) h0 h1' h2'
  simp only [e0, e1, e2, ea, eb, ec, Outcome.bind_ok]
  refine ⟨_, rfl, members3 (ha.congr fun i hi => ?_) (hb.congr fun i hi => ?_) (hc.congr fun i hi => ?_)⟩
  all_goals
    congr 1; omega

theorem lt4 {i : Nat} (h : i < 4) : i = 0 ∨ i = 1 ∨ i = 2 ∨ i = 3 := by omega
theorem lt8 {i : Nat} (h : i < 8) : i = 0 ∨ i = 1 ∨ i = 2 ∨ i = 3 ∨ i = 4 ∨ i = 5 ∨ i = 6 ∨ i = 7 := by omega

theorem load3f4_members {junk : Nat → α} {mem : List α} {off : Nat} (h : (off + 4) * 3 ≤ mem.length) :
    ∃ r, load3f4 junk mem off = .ok r ∧ Members 3 4 r mem (off + ·) := by
  unfold load3f4
  obtain ⟨x0, e0, h0⟩ := memcpyLoad_vec (mem := mem) (start := off * 3) (n := 4) (by omega)
  obtain ⟨x1, e1, h1⟩ := memcpyLoad_vec (mem := mem) (start := off * 3 + 4) (n := 4) (by omega)
  obtain ⟨x2, e2, h2⟩ := memcpyLoad_vec (mem := mem) (start := off * 3 + 8) (n := 4) (by omega)
  obtain ⟨t1, f1, g1⟩ := blend_vec (junk := junk) (indexes := [2, 3]) h2 h1 (by decide)
  obtain ⟨t2, f2, g2⟩ := blend_vec (junk := junk) (indexes := [0]) h0 h1 (by decide)
  obtain ⟨t3, f3, g3⟩ := blend_vec (junk := junk) (indexes := [2]) h1 h2 (by decide)
  obtain ⟨t4, f4, g4⟩ := blend_vec (junk := junk) (indexes := [2, 3]) h1 h0 (by decide)
  obtain ⟨a, ea, ha⟩ := shuffle_vec (junk := junk) (n := 4) (idx := indices [0, 3, 6, 5]) h0 g1 fun i hi => by
    rcases lt4 hi with rfl | rfl | rfl | rfl <;> decide
  obtain ⟨b, eb, hb⟩ := shuffle_vec (junk := junk) (n := 4) (idx := indices [1, 0, 7, 6]) g2 g3 fun i hi => by
    rcases lt4 hi with rfl | rfl | rfl | rfl <;> decide
  obtain ⟨c, ec, hc⟩ := shuffle_vec (junk := junk) (n := 4) (idx := indices [2, 1, 4, 7]) g4 h2 fun i hi => by
    rcases lt4 hi with rfl | rfl | rfl | rfl <;> decide
  simp only [e0, e1, e2, f1, f2, f3, f4, ea, eb, ec, Outcome.bind_ok]
  refine ⟨_, rfl, members3 (ha.congr fun i hi => ?_) (hb.congr fun i hi => ?_) (hc.congr fun i hi => ?_)⟩
  all_goals
    rcases lt4 hi with rfl | rfl | rfl | rfl <;> simp [indices] <;> congr 1 <;> omega

theorem load3f8_members {P : PEnv} {zero : α} {junk : Nat → α} {mem : List α} {off : Nat} (hp : P.sizeR = 8 * P.sizeT)
    (hfl : P.isFloat = true → P.sizeT = 4) (h : (off + 8) * 3 ≤ mem.length) :
    ∃ r, load3f8 P zero junk mem off = .ok r ∧ Members 3 8 r mem fun i => off + 3 * i % 8 := by
  unfold load3f8
  obtain ⟨x0, e0, h0⟩ := memcpyLoad_vec (mem := mem) (start := off * 3) (n := 8) (by omega)
  obtain ⟨x1, e1, h1⟩ := memcpyLoad_vec (mem := mem) (start := off * 3 + 8) (n := 8) (by omega)
  obtain ⟨x2, e2, h2⟩ := memcpyLoad_vec (mem := mem) (start := off * 3 + 16) (n := 8) (by omega)
  obtain ⟨t1, f1, g1⟩ := blend_vec (junk := junk) (indexes := [1, 4, 7]) h0 h1 (by decide)
  obtain ⟨t2, f2, g2⟩ := blend_vec (junk := junk) (indexes := [2, 5]) g1 h2 (by decide)
  obtain ⟨t3, f3, g3⟩ := blend_vec (junk := junk) (indexes := [2, 5]) h0 h1 (by decide)
  obtain ⟨t4, f4, g4⟩ := blend_vec (junk := junk) (indexes := [0, 3, 6]) g3 h2 (by decide)
  obtain ⟨t5, f5, g5⟩ := blend_vec (junk := junk) (indexes := [0, 3, 6]) h0 h1 (by decide)
  obtain ⟨t6, f6, g6⟩ := blend_vec (junk := junk) (indexes := [1, 4, 7]) g5 h2 (by decide)
  obtain ⟨b, eb, hb⟩ := rotate_vec (zero := zero) (junk := fun i => .ok (junk i)) (o := 1) g4 hp hfl (by omega)
  obtain ⟨c, ec, hc⟩ := rotate_vec (zero := zero) (junk := fun i => .ok (junk i)) (o := 2) g6 hp hfl (by omega)
  simp only [e0, e1, e2, f1, f2, f3, f4, f5, f6, Outcome.bind_ok]
  refine ⟨[t2, b, c], ?_, members3 (g2.congr fun i hi => ?_) (hb.congr fun i hi => ?_) (hc.congr fun i hi => ?_)⟩
  · have eb' : simdPermute P zero (fun i => .ok (junk i)) [] 0 (rotate 1) (some 1) t4 = .ok b := eb
    have ec' : simdPermute P zero (fun i => .ok (junk i)) [] 0 (rotate 2) (some 2) t6 = .ok c := ec
    rw [eb', Outcome.bind_ok, ec', Outcome.bind_ok]
  all_goals
    rcases lt8 hi with rfl | rfl | rfl | rfl | rfl | rfl | rfl | rfl <;> simp <;> congr 1 <;> omega

theorem storeIdx_eq {n q r i pos a b c : Nat} (hn : n = 3 * q + r) (hr : r < 3) :
    storeIdx n i pos a b c = ((if i % 3 = 0 then i / 3 + a + pos * q else if i % 3 = 1 then i / 3 + b + pos * q + n
      else i / 3 + c + ((pos + r) % 3) * q : Nat) : Int) := by
  have h1 : n / 3 = q := by omega
  have h2 : n % 3 = r := by omega
  have h3 : (n : Int) % 3 = r := by omega
  unfold storeIdx
  simp only [h1, h3]
  split
  · push_cast; rfl
  · split
    · push_cast; rfl
    · push_cast; rfl

/-- A shuffle with natural-number indices. -/
theorem shuffle_nat {junk : Nat → α} {N : Nat} {a b : List α} {f g : Nat → Option α} {idx : Nat → Int} {k : Nat → Nat}
    (ha : Vec a N f) (hb : Vec b N g) (hk : ∀ i, i < N → idx i = k i) (h : ∀ i, i < N → k i < 2 * N) :
    ∃ r, shuffle junk N a b idx = .ok r ∧ Vec r N fun i => if k i < N then f (k i) else g (k i - N) := by
  obtain ⟨r, h1, h2⟩ := shuffle_vec (junk := junk) (n := N) (idx := idx) ha hb fun i hi => by
    have := h i hi
    have := hk i hi
    right; omega
  refine ⟨r, h1, h2.congr fun i hi => ?_⟩
  simp only [hk i hi, Int.toNat_natCast]
  rw [if_neg (by omega)]

theorem merge_vec {junk : Nat → α} {N : Nat} {a b : List α} {f g : Nat → Option α} (ha : Vec a N f) (hb : Vec b N g) :
    ∃ r, shuffle junk N a b (mergeIdx N) = .ok r ∧ Vec r N fun i => if i % 3 ≠ 2 then f i else g i := by
  obtain ⟨r, h1, h2⟩ := shuffle_nat (junk := junk) (idx := mergeIdx N) (k := fun i => if i % 3 ≠ 2 then i else i + N) ha hb
    (fun i hi => by unfold mergeIdx; split <;> simp) (fun i hi => by split <;> omega)
  refine ⟨r, h1, h2.congr fun i hi => ?_⟩
  by_cases hm : i % 3 ≠ 2
  · simp only [if_pos hm]
    rw [if_pos hi]
  · simp only [if_neg hm]
    rw [if_neg (by omega), Nat.add_sub_cancel]

/-- The shuffle of the three-member store with index function `storeIdx`. -/
theorem storeIdx_vec {junk : Nat → α} {N q r pos a b c : Nat} {x y : List α} {f g : Nat → Option α} (hx : Vec x N f)
    (hy : Vec y N g) (hn : N = 3 * q + r) (hr : r < 3) (h0 : ∀ i, i < N → i % 3 = 0 → i / 3 + a + pos * q < N)
    (h1 : ∀ i, i < N → i % 3 = 1 → i / 3 + b + pos * q < N)
    (h2 : ∀ i, i < N → i % 3 = 2 → i / 3 + c + ((pos + r) % 3) * q < N) :
    ∃ z, shuffle junk N x y (fun i => storeIdx N i pos a b c) = .ok z ∧ Vec z N fun i =>
      if i % 3 = 0 then f (i / 3 + a + pos * q) else if i % 3 = 1 then g (i / 3 + b + pos * q)
      else f (i / 3 + c + ((pos + r) % 3) * q) := by
  obtain ⟨z, e, hz⟩ := shuffle_nat (junk := junk) (idx := fun i => storeIdx N i pos a b c) hx hy
    (fun i hi => storeIdx_eq hn hr) (fun i hi => by
      split
      · have := h0 i hi (by omega); omega
      · split
        · have := h1 i hi (by omega); omega
        · have := h2 i hi (by omega); omega)
  refine ⟨z, e, hz.congr fun i hi => ?_⟩
  by_cases c0 : i % 3 = 0
  · simp only [c0, if_true]
    rw [if_pos (h0 i hi c0)]
  · by_cases c1 : i % 3 = 1
    · simp only [c1, if_true]
      simp only [show ¬ (1 = 0) by omega, if_false]
      rw [if_neg (by omega)]
      congr 1; omega
    · simp only [c0, c1, if_false]
      rw [if_pos (h2 i hi (by omega))]

theorem scatter3_vec {junk : Nat → α} {n : Nat} {a b c : List α} {F : Nat → Nat → Option α} (hn : 3 ≤ n) (h3 : n % 3 ≠ 0)
    (ha : Vec a n (F 0)) (hb : Vec b n (F 1)) (hc : Vec c n (F 2)) :
    ∃ x y z, scatter3 junk n a b c = .ok (x, y, z) ∧ Vec x n (fun j => F (j % 3) (j / 3)) ∧
      Vec y n (fun j => F ((n + j) % 3) ((n + j) / 3)) ∧ Vec z n (fun j => F ((2 * n + j) % 3) ((2 * n + j) / 3)) := by
  unfold scatter3
  by_cases h1 : n % 3 = 1
  · obtain ⟨q, rfl⟩ : ∃ q, n = 3 * q + 1 := ⟨n / 3, by omega⟩
    obtain ⟨u, eu, hu⟩ := storeIdx_vec (junk := junk) (pos := 0) (a := 0) (b := 0) (c := 1) ha hb rfl (by omega)
      (fun i _ _ => by omega) (fun i _ _ => by omega) (fun i _ _ => by simp only [Nat.reduceMod, Nat.reduceAdd]; omega)
    obtain ⟨v, ev, hv⟩ := storeIdx_vec (junk := junk) (pos := 1) (a := 0) (b := 0) (c := 1) hb hc rfl (by omega)
      (fun i _ _ => by omega) (fun i _ _ => by omega) (fun i _ _ => by simp only [Nat.reduceMod, Nat.reduceAdd]; omega)
    obtain ⟨w, ew, hw⟩ := storeIdx_vec (junk := junk) (pos := 2) (a := 0) (b := 1) (c := 0) hc ha rfl (by omega)
      (fun i _ _ => by omega) (fun i _ _ => by omega) (fun i _ _ => by simp only [Nat.reduceMod, Nat.reduceAdd]; omega)
    obtain ⟨x, ex, hx⟩ := merge_vec (junk := junk) hu hw
    obtain ⟨y, ey, hy⟩ := merge_vec (junk := junk) hv hu
    obtain ⟨z, ez, hz⟩ := merge_vec (junk := junk) hw hv
    refine ⟨x, y, z, ?_, hx.congr fun i hi => ?_, hy.congr fun i hi => ?_, hz.congr fun i hi => ?_⟩
    · rw [if_pos h1]
      simp only [eu, ev, ew, ex, ey, ez, Outcome.bind_ok]
    all_goals
      have : i % 3 = 0 ∨ i % 3 = 1 ∨ i % 3 = 2 := by omega
      rcases this with e | e | e <;> simp [e] <;> congr 1 <;> omega
  · obtain ⟨q, rfl⟩ : ∃ q, n = 3 * q + 2 := ⟨n / 3, by omega⟩
    obtain ⟨u, eu, hu⟩ := storeIdx_vec (junk := junk) (pos := 0) (a := 0) (b := 0) (c := 2) ha hb rfl (by omega)
      (fun i _ _ => by omega) (fun i _ _ => by omega) (fun i _ _ => by simp only [Nat.reduceMod, Nat.reduceAdd]; omega)
    obtain ⟨w, ew, hw⟩ := storeIdx_vec (junk := junk) (pos := 1) (a := 0) (b := 1) (c := 0) hc ha rfl (by omega)
      (fun i _ _ => by omega) (fun i _ _ => by omega) (fun i _ _ => by simp only [Nat.reduceMod, Nat.reduceAdd]; omega)
    obtain ⟨v, ev, hv⟩ := storeIdx_vec (junk := junk) (pos := 2) (a := 1) (b := 1) (c := 1) hb hc rfl (by omega)
      (fun i _ _ => by omega) (fun i _ _ => by omega) (fun i _ _ => by simp only [Nat.reduceMod, Nat.reduceAdd]; omega)
    obtain ⟨x, ex, hx⟩ := merge_vec (junk := junk) hu hw
    obtain ⟨y, ey, hy⟩ := merge_vec (junk := junk) hw hv
    obtain ⟨z, ez, hz⟩ := merge_vec (junk := junk) hv hu
    refine ⟨x, y, z, ?_, hx.congr fun i hi => ?_, hy.congr fun i hi => ?_, hz.congr fun i hi => ?_⟩
    · rw [if_neg h1, if_pos (by omega)]
      simp only [eu, ev, ew, ex, ey, ez, Outcome.bind_ok]
    all_goals
      have : i % 3 = 0 ∨ i % 3 = 1 ∨ i % 3 = 2 := by omega
      rcases this with e | e | e <;> simp [e] <;> congr 1 <;> omega

/-- Lane `i` of member vector `m`. -/
def laneOf (v : List (List α)) (m i : Nat) : Option α := (v[m]?).bind (·[i]?)

theorem laneOf_vec {v : List (List α)} {n m : Nat} (hm : m < v.length) (h : v[m].length = n) : Vec v[m] n (laneOf v m) :=
  ⟨h, fun i _ => by simp [laneOf, hm]⟩

/-- The array `mem'` is `mem` with structs `off ... off + n - 1` replaced by the lanes of `v`. -/
def Stored (count n : Nat) (v : List (List α)) (mem mem' : List α) (off : Nat) : Prop :=
  mem'.length = mem.length ∧ (∀ i m : Nat, i < n → m < count → mem'[(off + i) * count + m]? = laneOf v m i) ∧
    ∀ j : Nat, (j < off * count ∨ (off + n) * count ≤ j) → mem'[j]? = mem[j]?

theorem subscript_vec {count n i : Nat} {v : List (List α)} (hl : v.length = count) (hv : ∀ w ∈ v, w.length = n) (hi : i < n) :
    ∃ s, subscript count v i = .ok s ∧ Vec s count fun m => laneOf v m i := by
  obtain ⟨s, h1, h2, h3⟩ := gen_choose (f := fun m => do at' (← rd v m) i) (P := fun m x => laneOf v m i = some x) (n := count)
    fun m hm => by
      have hm' : m < v.length := by omega
      have hw : i < v[m].length := by rw [hv _ (List.getElem_mem hm')]; exact hi
      refine ⟨v[m][i], by rw [rd_eq hm', Outcome.bind_ok, at'_eq hw], ?_⟩
      simp [laneOf, hm', hw]
  exact ⟨s, h1, h2, fun m hm => by
    have := h3 m s[m] (List.getElem?_eq_getElem (by omega))
    exact (List.getElem?_eq_getElem (by omega)).trans this.symm⟩

theorem storeGeneric_stored {mem : List α} {n count off : Nat} {v : List (List α)} (hl : v.length = count)
    (hv : ∀ w ∈ v, w.length = n) (h : (off + n) * count ≤ mem.length) :
    ∃ mem', storeGeneric n count v mem off = .ok mem' ∧ Stored count n v mem mem' off := by
  have key := forUp_inv (fun i mem => do
      let s ← subscript count v i
      memcpyStore mem ((off + i) * count) s) n 0 mem (fun k mem' => Stored count k v mem mem' off)
    ⟨rfl, fun i m hi => by omega, fun j _ => rfl⟩ (fun k mem' _ hk hP => by
      obtain ⟨hP1, hP2, hP3⟩ := hP
      obtain ⟨s, e, hs⟩ := subscript_vec hl hv (show k < n by omega)
      have hle : (off + k + 1) * count ≤ (off + n) * count := Nat.mul_le_mul_right _ (by omega)
      have hmul : (off + k + 1) * count = (off + k) * count + count := by rw [Nat.add_mul, Nat.one_mul]
      obtain ⟨mem'', e2, g1, g2, g3⟩ := memcpyStore_getElem? (mem := mem') (v := s) (start := (off + k) * count)
        (by rw [hs.1]; omega)
      rw [hs.1] at g2 g3
      refine ⟨mem'', by rw [e, Outcome.bind_ok, e2], by omega, fun i m hi hm => ?_, fun j hj => ?_⟩
      · by_cases hik : i = k
        · subst hik
          rw [g2 m hm, hs.2 m hm]
        · have h1 : (off + i + 1) * count ≤ (off + k) * count := Nat.mul_le_mul_right _ (by omega)
          have h2 : (off + i + 1) * count = (off + i) * count + count := by rw [Nat.add_mul, Nat.one_mul]
          rw [g3 _ (.inl (by omega)), hP2 i m (by omega) hm]
      · have h1 : off * count ≤ (off + k) * count := Nat.mul_le_mul_right _ (by omega)
        rw [Nat.add_assoc] at hmul
        rw [g3 j (by omega), hP3 j (by omega)])
  obtain ⟨mem', e, hP⟩ := key
  rw [Nat.zero_add] at hP
  exact ⟨mem', e, hP⟩

theorem store3_stored {junk : Nat → α} {mem : List α} {n off : Nat} {v : List (List α)} (hn : 3 ≤ n) (h3 : n % 3 ≠ 0)
    (hl : v.length = 3) (hv : ∀ w ∈ v, w.length = n) (h : (off + n) * 3 ≤ mem.length) :
    ∃ mem', store3 junk n v mem off = .ok mem' ∧ Stored 3 n v mem mem' off := by
  unfold store3
  obtain ⟨x, y, z, e, hx, hy, hz⟩ := scatter3_vec (junk := junk) (F := laneOf v) hn h3
    (laneOf_vec (v := v) (m := 0) (by omega) (hv _ (List.getElem_mem _)))
    (laneOf_vec (v := v) (m := 1) (by omega) (hv _ (List.getElem_mem _)))
    (laneOf_vec (v := v) (m := 2) (by omega) (hv _ (List.getElem_mem _)))
  rw [rd_eq (show 0 < v.length by omega), rd_eq (show 1 < v.length by omega), rd_eq (show 2 < v.length by omega)]
  simp only [Outcome.bind_ok, e]
  obtain ⟨m1, e1, a1, b1, c1⟩ := memcpyStore_getElem? (mem := mem) (v := x) (start := off * 3) (by rw [hx.1]; omega)
  obtain ⟨m2, e2, a2, b2, c2⟩ := memcpyStore_getElem? (mem := m1) (v := y) (start := off * 3 + n) (by rw [hy.1]; omega)
  obtain ⟨m3, e3, a3, b3, c3⟩ := memcpyStore_getElem? (mem := m2) (v := z) (start := off * 3 + 2 * n) (by rw [hz.1]; omega)
  rw [hx.1] at b1 c1
  rw [hy.1] at b2 c2
  rw [hz.1] at b3 c3
  simp only [e1, e2, e3, Outcome.bind_ok]
  refine ⟨m3, rfl, by omega, fun i m hi hm => ?_, fun j hj => by rw [c3 j (by omega), c2 j (by omega), c1 j (by omega)]⟩
  obtain ⟨t, ht⟩ : ∃ t, t = i * 3 + m := ⟨_, rfl⟩
  have ht3 : t % 3 = m := by omega
  have htd : t / 3 = i := by omega
  have hidx : (off + i) * 3 + m = off * 3 + t := by omega
  rw [hidx]
  by_cases d1 : t < n
  · rw [c3 _ (by omega), c2 _ (by omega), b1 _ d1, hx.2 _ d1]
    show laneOf v (t % 3) (t / 3) = _
    rw [ht3, htd]
  · by_cases d2 : t < 2 * n
    · rw [c3 _ (by omega), show off * 3 + t = off * 3 + n + (t - n) by omega, b2 _ (by omega), hy.2 _ (by omega)]
      show laneOf v ((n + (t - n)) % 3) ((n + (t - n)) / 3) = _
      rw [show n + (t - n) = t by omega, ht3, htd]
    · rw [show off * 3 + t = off * 3 + 2 * n + (t - 2 * n) by omega, b3 _ (by omega), hz.2 _ (by omega)]
      show laneOf v ((2 * n + (t - 2 * n)) % 3) ((2 * n + (t - 2 * n)) / 3) = _
      rw [show 2 * n + (t - 2 * n) = t by omega, ht3, htd]

/-! ### Accesses outside the array -/

theorem memcpyLoad_cases (mem : List α) (start n : Nat) :
    (∃ r, memcpyLoad mem start n = .ok r) ∨ ∃ u, memcpyLoad mem start n = .ub u := by
  by_cases h : start + n ≤ mem.length
  · obtain ⟨r, h, _⟩ := memcpyLoad_vec h
    exact .inl ⟨r, h⟩
  · by_cases hn : n = 0
    · subst hn; exact .inl ⟨[], rfl⟩
    · exact .inr ⟨_, memcpyLoad_ub (by omega) (by omega)⟩

theorem load2_oob {junk : Nat → α} {mem : List α} {n off : Nat} (hn : n % 2 = 0) (hpos : 0 < n)
    (h : mem.length < (off + n) * 2) : ∃ u, load2 junk n mem off = .ub u := by
  unfold load2
  rcases memcpyLoad_cases mem (off * 2) n with ⟨r, e⟩ | ⟨u, e⟩
  · exact ⟨.oob, by
      simp only [e, Outcome.bind_ok, memcpyLoad_ub (mem := mem) (start := (off + n / 2) * 2) (n := n) (by omega) hpos,
        Outcome.bind_ub]⟩
  · exact ⟨u, by simp only [e, Outcome.bind_ub]⟩

/-- Three loads of which the last is outside the array. -/
theorem three_loads_oob {β : Type} {mem : List α} {s0 s1 s2 n : Nat} {k : List α → List α → List α → Outcome β}
    (hpos : 0 < n) (h : mem.length < s2 + n) :
    ∃ u, (do
      let x0 ← memcpyLoad mem s0 n
      let x1 ← memcpyLoad mem s1 n
      let x2 ← memcpyLoad mem s2 n
      k x0 x1 x2) = Outcome.ub u := by
  rcases memcpyLoad_cases mem s0 n with ⟨r, e⟩ | ⟨u, e⟩
  · rcases memcpyLoad_cases mem s1 n with ⟨r', e'⟩ | ⟨u, e'⟩
    · exact ⟨.oob, by simp only [e, e', memcpyLoad_ub h hpos, Outcome.bind_ok, Outcome.bind_ub]⟩
    · exact ⟨u, by simp only [e, e', Outcome.bind_ok, Outcome.bind_ub]⟩
  · exact ⟨u, by simp only [e, Outcome.bind_ub]⟩

theorem loadGeneric_oob {mem : List α} {n count off : Nat} (hn : 0 < n) (hc : 0 < count)
    (h : mem.length < (off + n) * count) : ∃ u, loadGeneric n count mem off = .ub u := by
  have hin : ∀ m i, rd mem ((off + i) * count + m) ≠ .trap := fun m i => by unfold rd; split <;> simp
  have hgen : ∀ m, (gen n fun i => rd mem ((off + i) * count + m)) ≠ .trap := fun m => by
    by_cases hex : ∃ k, k < n ∧ ∃ u, rd mem ((off + k) * count + m) = .ub u
    · obtain ⟨k, hk, hu⟩ := hex
      obtain ⟨u, hu⟩ := gen_some_ub (fun j _ => hin m j) hk hu
      rw [hu]; simp
    · obtain ⟨r, hr, _⟩ := gen_choose (f := fun i => rd mem ((off + i) * count + m)) (P := fun _ _ => True) (n := n)
        fun i hi => by
          cases hrd : rd mem ((off + i) * count + m) with
          | ok x => exact ⟨x, rfl, trivial⟩
          | ub u => exact absurd ⟨i, hi, u, hrd⟩ hex
          | trap => exact absurd hrd (hin m i)
      rw [hr]; simp
  refine gen_some_ub (k := count - 1) (fun m _ => hgen m) (by omega) ?_
  refine gen_some_ub (k := n - 1) (fun i _ => hin _ i) (by omega) ⟨.oob, ?_⟩
  have h1 : (off + n) * count = (off + (n - 1)) * count + count := by
    rw [show off + n = off + (n - 1) + 1 by omega, Nat.add_mul, Nat.one_mul]
  unfold rd
  rw [List.getElem?_eq_none (by omega)]

theorem storeGeneric_oob {mem : List α} {n count off : Nat} {v : List (List α)} (hl : v.length = count)
    (hv : ∀ w ∈ v, w.length = n) (hn : 0 < n) (hc : 0 < count) (h : mem.length < (off + n) * count) :
    ∃ u, storeGeneric n count v mem off = .ub u := by
  have h1 : (off + n) * count = (off + (n - 1)) * count + count := by
    rw [show off + n = off + (n - 1) + 1 by omega, Nat.add_mul, Nat.one_mul]
  refine forUp_some_ub (k := n - 1) (fun m => m.length = mem.length) rfl (fun j s hj hs => ?_) (by omega) (fun s hs => ?_)
  · obtain ⟨w, e, hw⟩ := subscript_vec hl hv hj
    rw [e, Outcome.bind_ok]
    by_cases hfit : (off + j) * count + w.length ≤ s.length
    · obtain ⟨s', e', h', _⟩ := memcpyStore_getElem? hfit
      exact .inl ⟨s', e', by omega⟩
    · exact .inr (memcpyStore_ub (by omega) (by rw [hw.1]; exact hc))
  · obtain ⟨w, e, hw⟩ := subscript_vec hl hv (show n - 1 < n by omega)
    rw [e, Outcome.bind_ok]
    exact memcpyStore_ub (by rw [hw.1]; omega) (by rw [hw.1]; exact hc)

theorem store3_oob {junk : Nat → α} {mem : List α} {n off : Nat} {v : List (List α)} (hn : 3 ≤ n) (h3 : n % 3 ≠ 0)
    (hl : v.length = 3) (hv : ∀ w ∈ v, w.length = n) (h : mem.length < (off + n) * 3) :
    ∃ u, store3 junk n v mem off = .ub u := by
  unfold store3
  obtain ⟨x, y, z, e, hx, hy, hz⟩ := scatter3_vec (junk := junk) (F := laneOf v) hn h3
    (laneOf_vec (v := v) (m := 0) (by omega) (hv _ (List.getElem_mem _)))
    (laneOf_vec (v := v) (m := 1) (by omega) (hv _ (List.getElem_mem _)))
    (laneOf_vec (v := v) (m := 2) (by omega) (hv _ (List.getElem_mem _)))
  rw [rd_eq (show 0 < v.length by omega), rd_eq (show 1 < v.length by omega), rd_eq (show 2 < v.length by omega)]
  simp only [Outcome.bind_ok, e]
  by_cases h1 : off * 3 + x.length ≤ mem.length
  · obtain ⟨m1, e1, a1, _⟩ := memcpyStore_getElem? h1
    rw [e1, Outcome.bind_ok]
    by_cases h2 : off * 3 + n + y.length ≤ m1.length
    · obtain ⟨m2, e2, a2, _⟩ := memcpyStore_getElem? h2
      rw [e2, Outcome.bind_ok]
      exact memcpyStore_ub (by rw [hz.1]; omega) (by rw [hz.1]; omega)
    · obtain ⟨u, hu⟩ := memcpyStore_ub (v := y) (mem := m1) (start := off * 3 + n) (by omega) (by rw [hy.1]; omega)
      exact ⟨u, by rw [hu, Outcome.bind_ub]⟩
  · obtain ⟨u, hu⟩ := memcpyStore_ub (v := x) (mem := mem) (start := off * 3) (by omega) (by rw [hx.1]; omega)
    exact ⟨u, by rw [hu, Outcome.bind_ub]⟩

theorem two_pow_mod (k : Nat) : 2 ^ k % 3 ≠ 0 := by
  induction k with
  | zero => decide
  | succ k ih => rw [Nat.pow_succ]; omega

theorem singleBit_even {n : Nat} (h : hasSingleBit n = true) (hn : 1 < n) : n % 2 = 0 := by
  obtain ⟨k, rfl⟩ := (hasSingleBit_iff n).1 h
  cases k with
  | zero => simp at hn
  | succ k => rw [Nat.pow_succ]; omega

theorem singleBit_mod3 {n : Nat} (h : hasSingleBit n = true) : n % 3 ≠ 0 := by
  obtain ⟨k, rfl⟩ := (hasSingleBit_iff n).1 h
  exact two_pow_mod k

end Vir.Simdize
