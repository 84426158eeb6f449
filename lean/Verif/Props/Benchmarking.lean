import Verif.Spec.Benchmarking

/-!
# C90: `fake_modify` and `fake_read` hide and keep every part of their arguments
-/

namespace Vir.Benchmarking
open Spec

variable {x86 : Bool} {h : Nat → List UInt8 → List UInt8}

private theorem readLeaf_eq (x : Leaf) (t : Trace) :
    ∃ alts, readLeaf x86 x t = t ++ [⟨false, alts, x.bytes⟩] ∧ (.g ∈ alts) := by
  unfold readLeaf asmIn
  split
  · exact ⟨_, rfl, by simp [regAlts]⟩
  · split
    · exact ⟨_, rfl, by simp [regAlts]⟩
    · exact ⟨_, rfl, by simp⟩

/-- The statements of a trace are for these values. -/
private def Covers (inOut : Bool) (new : Trace) (ps : List (List UInt8)) : Prop :=
  new.map Asm.operand = ps ∧ ∀ a ∈ new, a.inOut = inOut ∧ .g ∈ a.alts

private theorem covers_append {i : Bool} {n1 n2 : Trace} {p1 p2 : List (List UInt8)} (h1 : Covers i n1 p1) (h2 : Covers i n2 p2) :
    Covers i (n1 ++ n2) (p1 ++ p2) := by
  refine ⟨by rw [List.map_append, h1.1, h2.1], fun a ha => ?_⟩
  rcases List.mem_append.1 ha with ha | ha
  · exact h1.2 a ha
  · exact h2.2 a ha

private theorem readLeaf_covers (x : Leaf) (t : Trace) : ∃ n, readLeaf x86 x t = t ++ n ∧ Covers false n [x.bytes] := by
  obtain ⟨alts, h1, h2⟩ := readLeaf_eq (x86 := x86) x t
  exact ⟨_, h1, rfl, by simpa using h2⟩

private theorem readLeaves_covers (es : List Leaf) (t : Trace) :
    ∃ n, es.foldl (fun t e => readLeaf x86 e t) t = t ++ n ∧ Covers false n (es.map Leaf.bytes) := by
  induction es generalizing t with
  | nil => exact ⟨[], by simp, rfl, by simp⟩
  | cons e es ih =>
    obtain ⟨n1, h1, c1⟩ := readLeaf_covers (x86 := x86) e t
    obtain ⟨n2, h2, c2⟩ := ih (t ++ n1)
    refine ⟨n1 ++ n2, ?_, covers_append c1 c2⟩
    rw [List.foldl_cons, h1, h2, List.append_assoc]

private theorem readOne_covers (x : Obj) (t : Trace) : ∃ n, fakeReadOne x86 x t = t ++ n ∧ Covers false n (parts x) := by
  cases x with
  | leaf x => exact readLeaf_covers x t
  | tuple es => exact readLeaves_covers es t
  | wrapped d => exact readLeaf_covers d t
  | plain d => exact readLeaf_covers d t
  | virSimd b =>
    simp only [fakeReadOne, asmIn]
    split
    · exact ⟨_, rfl, rfl, by simp⟩
    · exact ⟨_, rfl, rfl, by simp [regAlts]⟩

/-- **C90 (`fake_read`).** There is one statement for every part of every argument, in order; it has the part's value as its only
operand, which is an input, and any object can be that operand because memory is allowed (`g`). -/
theorem fakeRead_all (xs : List Obj) (t : Trace) :
    ∃ new, fakeRead x86 xs t = t ++ new ∧ new.map Asm.operand = xs.flatMap parts ∧ ∀ a ∈ new, a.inOut = false ∧ .g ∈ a.alts := by
  unfold fakeRead
  induction xs generalizing t with
  | nil => exact ⟨[], by simp, by simp, by simp⟩
  | cons x xs ih =>
    obtain ⟨n1, h1, c1⟩ := readOne_covers (x86 := x86) x t
    obtain ⟨n2, h2, c2⟩ := ih (t ++ n1)
    refine ⟨n1 ++ n2, ?_, covers_append c1 c2⟩
    rw [List.foldl_cons, h1, h2, List.append_assoc]

private theorem leaves_ext {xs ys : List Leaf} (hs : List.Forall₂ SameLeaf xs ys) (he : xs.map Leaf.bytes = ys.map Leaf.bytes) :
    xs = ys := by
  induction hs with
  | nil => rfl
  | @cons x y xs ys h1 h2 ih =>
    rw [List.map_cons, List.map_cons, List.cons.injEq] at he
    rw [ih he.2]
    congr 1
    cases x; cases y
    simp only [SameLeaf, Leaf.mk.injEq] at h1 he ⊢
    exact ⟨h1.1, he.1⟩

private theorem leaf_ext {x y : Leaf} (hs : SameLeaf x y) (he : x.bytes = y.bytes) : x = y := by
  cases x; cases y
  simp only [SameLeaf, Leaf.mk.injEq] at hs he ⊢
  exact ⟨hs.1, he⟩

private theorem parts_length {x y : Obj} (hs : SameType x y) : (parts x).length = (parts y).length := by
  cases hs with
  | tuple h => simpa [parts] using h.length_eq
  | _ => rfl

private theorem parts_ext {x y : Obj} (hs : SameType x y) (he : parts x = parts y) : x = y := by
  cases hs with
  | leaf h => rw [leaf_ext h (by simpa [parts] using he)]
  | tuple h => rw [leaves_ext h (by simpa [parts] using he)]
  | wrapped h => rw [leaf_ext h (by simpa [parts] using he)]
  | plain h => rw [leaf_ext h (by simpa [parts] using he)]
  | virSimd h =>
    simp only [parts, List.cons.injEq, and_true] at he
    rw [he]

/-- **C90 (`fake_read`).** The statements depend on every bit of the arguments: two different lists of arguments of the same types
give different statements. A compiler that keeps the statements has to compute the arguments. -/
theorem fakeRead_determines {xs ys : List Obj} (hs : List.Forall₂ SameType xs ys) (he : fakeRead x86 xs [] = fakeRead x86 ys []) :
    xs = ys := by
  obtain ⟨n1, h1, c1, -⟩ := fakeRead_all (x86 := x86) xs []
  obtain ⟨n2, h2, c2, -⟩ := fakeRead_all (x86 := x86) ys []
  rw [h1, h2, List.nil_append, List.nil_append] at he
  rw [he, c2] at c1
  clear h1 h2 c2 he
  induction hs with
  | nil => rfl
  | @cons x y xs ys h1 h2 ih =>
    rw [List.flatMap_cons, List.flatMap_cons] at c1
    obtain ⟨e1, e2⟩ := List.append_inj c1 (parts_length h1).symm
    rw [ih e2, parts_ext h1 e1.symm]

private theorem modifyLeaf_eq (x : Leaf) (t : Trace) :
    ∃ alts, modifyLeaf x86 h x t = (⟨x.isFloat, h t.length x.bytes⟩, t ++ [⟨true, alts, x.bytes⟩]) ∧ (.g ∈ alts) := by
  unfold modifyLeaf asmInOut
  split
  · exact ⟨_, rfl, by simp [regAlts]⟩
  · split
    · exact ⟨_, rfl, by simp [regAlts]⟩
    · exact ⟨_, rfl, by simp⟩

/-- The parts of the values that the compiler sees after the statements. -/
private def after (h : Nat → List UInt8 → List UInt8) : Nat → List (List UInt8) → List (List UInt8)
  | _, [] => []
  | k, p :: ps => h k p :: after h (k + 1) ps

private theorem after_append (k : Nat) (p q : List (List UInt8)) : after h k (p ++ q) = after h k p ++ after h (k + p.length) q := by
  induction p generalizing k with
  | nil => simp [after]
  | cons x p ih => simp only [List.cons_append, after, ih, List.length_cons]; congr 3; omega

private theorem modifyLeaf_covers (hh : Havoc h) (x : Leaf) (t : Trace) :
    ∃ y n, modifyLeaf x86 h x t = (y, t ++ n) ∧ SameLeaf x y ∧ [y.bytes] = after h t.length [x.bytes] ∧ Covers true n [x.bytes] := by
  obtain ⟨alts, h1, h2⟩ := modifyLeaf_eq (x86 := x86) (h := h) x t
  exact ⟨_, _, h1, ⟨rfl, (hh _ _).symm⟩, rfl, rfl, by simpa using h2⟩

private theorem covers_length {i : Bool} {n : Trace} {p : List (List UInt8)} (hc : Covers i n p) : n.length = p.length := by
  rw [← hc.1, List.length_map]

private theorem modifyLeaves_covers (hh : Havoc h) (es : List Leaf) (t : Trace) :
    ∃ ys n, modifyLeaves x86 h es t = (ys, t ++ n) ∧ List.Forall₂ SameLeaf es ys ∧
      ys.map Leaf.bytes = after h t.length (es.map Leaf.bytes) ∧ Covers true n (es.map Leaf.bytes) := by
  induction es generalizing t with
  | nil => exact ⟨[], [], by simp [modifyLeaves], .nil, rfl, rfl, by simp⟩
  | cons e es ih =>
    obtain ⟨y, n1, h1, s1, a1, c1⟩ := modifyLeaf_covers (x86 := x86) hh e t
    obtain ⟨ys, n2, h2, s2, a2, c2⟩ := ih (t ++ n1)
    refine ⟨y :: ys, n1 ++ n2, ?_, .cons s1 s2, ?_, covers_append c1 c2⟩
    · simp only [modifyLeaves, h1, h2, List.append_assoc]
    · rw [List.map_cons, List.map_cons, a2, List.length_append, covers_length c1]
      simp only [after, List.cons.injEq] at a1 ⊢
      exact ⟨a1.1, rfl⟩

private theorem modifyOne_covers (hh : Havoc h) (x : Obj) (t : Trace) :
    ∃ y n, fakeModifyOne x86 h x t = (y, t ++ n) ∧ SameType x y ∧ parts y = after h t.length (parts x) ∧ Covers true n (parts x) := by
  cases x with
  | leaf x =>
    obtain ⟨y, n, h1, s, a, c⟩ := modifyLeaf_covers (x86 := x86) hh x t
    exact ⟨.leaf y, n, by simp only [fakeModifyOne, h1], .leaf s, a, c⟩
  | tuple es =>
    obtain ⟨y, n, h1, s, a, c⟩ := modifyLeaves_covers (x86 := x86) hh es t
    exact ⟨.tuple y, n, by simp only [fakeModifyOne, h1], .tuple s, a, c⟩
  | wrapped x =>
    obtain ⟨y, n, h1, s, a, c⟩ := modifyLeaf_covers (x86 := x86) hh x t
    exact ⟨.wrapped y, n, by simp only [fakeModifyOne, h1], .wrapped s, a, c⟩
  | plain x =>
    obtain ⟨y, n, h1, s, a, c⟩ := modifyLeaf_covers (x86 := x86) hh x t
    exact ⟨.plain y, n, by simp only [fakeModifyOne, h1], .plain s, a, c⟩
  | virSimd b =>
    simp only [fakeModifyOne, asmInOut]
    split
    · exact ⟨_, _, rfl, .virSimd (hh _ _).symm, rfl, rfl, by simp⟩
    · exact ⟨_, _, rfl, .virSimd (hh _ _).symm, rfl, rfl, by simp [regAlts]⟩

private theorem modify_covers (hh : Havoc h) (xs : List Obj) (t : Trace) :
    ∃ ys n, fakeModify x86 h xs t = (ys, t ++ n) ∧ List.Forall₂ SameType xs ys ∧
      ys.flatMap parts = after h t.length (xs.flatMap parts) ∧ Covers true n (xs.flatMap parts) := by
  induction xs generalizing t with
  | nil => exact ⟨[], [], by simp [fakeModify], .nil, rfl, rfl, by simp⟩
  | cons x xs ih =>
    obtain ⟨y, n1, h1, s1, a1, c1⟩ := modifyOne_covers (x86 := x86) hh x t
    obtain ⟨ys, n2, h2, s2, a2, c2⟩ := ih (t ++ n1)
    refine ⟨y :: ys, n1 ++ n2, ?_, .cons s1 s2, ?_, covers_append c1 c2⟩
    · simp only [fakeModify, h1, h2, List.append_assoc]
    · rw [List.flatMap_cons, List.flatMap_cons, a2, a1, after_append, List.length_append, covers_length c1]

private theorem registers_reg (v : Bool) (hv : v = true) (i : Bool) (b : List UInt8) : Registers x86 ⟨i, regAlts x86, b⟩ v := by
  subst hv
  cases x86 <;> simp [Registers, regAlts]

private theorem registers_g (v : Bool) (hv : v = false) (i : Bool) (b : List UInt8) : Registers x86 ⟨i, [.g], b⟩ v := by
  subst hv
  simp [Registers]

private theorem readLeaf_registers (x : Leaf) (t : Trace) :
    ∃ n, readLeaf x86 x t = t ++ n ∧ List.Forall₂ (Registers x86) n [x.isFloat || decide (16 ≤ x.bytes.length)] := by
  unfold readLeaf asmIn
  split
  · rename_i hf
    exact ⟨_, rfl, .cons (registers_reg _ (by simp [hf]) _ _) .nil⟩
  · rename_i hf
    split
    · rename_i hl
      exact ⟨_, rfl, .cons (registers_reg _ (by simpa using .inr hl) _ _) .nil⟩
    · rename_i hl
      exact ⟨_, rfl, .cons (registers_g _ (by simp [hf]; omega) _ _) .nil⟩

private theorem modifyLeaf_registers (x : Leaf) (t : Trace) :
    ∃ n, (modifyLeaf x86 h x t).2 = t ++ n ∧ List.Forall₂ (Registers x86) n [x.isFloat || decide (16 ≤ x.bytes.length)] := by
  unfold modifyLeaf asmInOut
  split
  · rename_i hf
    exact ⟨_, rfl, .cons (registers_reg _ (by simp [hf]) _ _) .nil⟩
  · rename_i hf
    split
    · rename_i hl
      exact ⟨_, rfl, .cons (registers_reg _ (by simpa using .inr hl) _ _) .nil⟩
    · rename_i hl
      exact ⟨_, rfl, .cons (registers_g _ (by simp [hf]; omega) _ _) .nil⟩

private theorem readOne_registers (x : Obj) (t : Trace) :
    ∃ n, fakeReadOne x86 x t = t ++ n ∧ List.Forall₂ (Registers x86) n (vectorParts x) := by
  cases x with
  | leaf x => exact readLeaf_registers x t
  | tuple es =>
    simp only [fakeReadOne, vectorParts]
    induction es generalizing t with
    | nil => exact ⟨[], by simp, .nil⟩
    | cons e es ih =>
      obtain ⟨n1, h1, c1⟩ := readLeaf_registers (x86 := x86) e t
      obtain ⟨n2, h2, c2⟩ := ih (t ++ n1)
      refine ⟨n1 ++ n2, ?_, List.rel_append c1 c2⟩
      rw [List.foldl_cons, h1, h2, List.append_assoc]
  | wrapped d => exact readLeaf_registers d t
  | plain d => exact readLeaf_registers d t
  | virSimd b =>
    simp only [fakeReadOne, asmIn]
    split
    · exact ⟨_, rfl, .cons (registers_g _ (by simpa using by omega) _ _) .nil⟩
    · exact ⟨_, rfl, .cons (registers_reg _ (by simpa using by omega) _ _) .nil⟩

/-- **C90 (`fake_read`).** Nothing has to leave a vector register: the statements for floating-point values and for values of 16 bytes and
more accept one exactly if the target has them; the other values are never moved into one. -/
theorem fakeRead_registers (xs : List Obj) (t : Trace) :
    ∃ new, fakeRead x86 xs t = t ++ new ∧ List.Forall₂ (Registers x86) new (xs.flatMap vectorParts) := by
  unfold fakeRead
  induction xs generalizing t with
  | nil => exact ⟨[], by simp, .nil⟩
  | cons x xs ih =>
    obtain ⟨n1, h1, c1⟩ := readOne_registers (x86 := x86) x t
    obtain ⟨n2, h2, c2⟩ := ih (t ++ n1)
    refine ⟨n1 ++ n2, ?_, List.rel_append c1 c2⟩
    rw [List.foldl_cons, h1, h2, List.append_assoc]

private theorem modifyOne_registers (x : Obj) (t : Trace) :
    ∃ n, (fakeModifyOne x86 h x t).2 = t ++ n ∧ List.Forall₂ (Registers x86) n (vectorParts x) := by
  cases x with
  | leaf x => exact modifyLeaf_registers x t
  | tuple es =>
    simp only [fakeModifyOne, vectorParts]
    induction es generalizing t with
    | nil => exact ⟨[], by simp [modifyLeaves], .nil⟩
    | cons e es ih =>
      obtain ⟨n1, h1, c1⟩ := modifyLeaf_registers (x86 := x86) (h := h) e t
      obtain ⟨n2, h2, c2⟩ := ih (t ++ n1)
      refine ⟨n1 ++ n2, ?_, List.rel_append c1 c2⟩
      simp only [modifyLeaves]
      rw [h1, h2, List.append_assoc]
  | wrapped d => exact modifyLeaf_registers d t
  | plain d => exact modifyLeaf_registers d t
  | virSimd b =>
    simp only [fakeModifyOne, asmInOut]
    split
    · exact ⟨_, rfl, .cons (registers_g _ (by simpa using by omega) _ _) .nil⟩
    · exact ⟨_, rfl, .cons (registers_reg _ (by simpa using by omega) _ _) .nil⟩

/-- **C90 (`fake_modify`).** As for `fake_read`. -/
theorem fakeModify_registers (xs : List Obj) (t : Trace) :
    ∃ new, (fakeModify x86 h xs t).2 = t ++ new ∧ List.Forall₂ (Registers x86) new (xs.flatMap vectorParts) := by
  induction xs generalizing t with
  | nil => exact ⟨[], by simp [fakeModify], .nil⟩
  | cons x xs ih =>
    obtain ⟨n1, h1, c1⟩ := modifyOne_registers (x86 := x86) (h := h) x t
    obtain ⟨n2, h2, c2⟩ := ih (t ++ n1)
    refine ⟨n1 ++ n2, ?_, List.rel_append c1 c2⟩
    simp only [fakeModify]
    rw [h1, h2, List.append_assoc]

/-- **C90 (`fake_modify`).** There is one statement for every part of every argument, in order, whose only operand is the part, as input and
output, and may be in memory. The arguments keep their types. -/
theorem fakeModify_all (hh : Havoc h) (xs : List Obj) (t : Trace) :
    ∃ new, (fakeModify x86 h xs t).2 = t ++ new ∧ new.map Asm.operand = xs.flatMap parts ∧
      (∀ a ∈ new, a.inOut = true ∧ .g ∈ a.alts) ∧ List.Forall₂ SameType xs (fakeModify x86 h xs t).1 := by
  obtain ⟨ys, n, h1, s, -, c⟩ := modify_covers (x86 := x86) hh xs t
  rw [h1]
  exact ⟨n, rfl, c.1, c.2, s⟩

private theorem sameType_ext {xs ys : List Obj} (hs : List.Forall₂ SameType xs ys) (he : xs.flatMap parts = ys.flatMap parts) : xs = ys := by
  induction hs with
  | nil => rfl
  | @cons x y xs ys h1 h2 ih =>
    rw [List.flatMap_cons, List.flatMap_cons] at he
    obtain ⟨e1, e2⟩ := List.append_inj he (parts_length h1)
    rw [ih e2, parts_ext h1 e1]

/-- **C90 (`fake_modify`).** The statements have no instructions: the arguments keep their values. -/
theorem fakeModify_unchanged (xs : List Obj) (t : Trace) : (fakeModify x86 (fun _ b => b) xs t).1 = xs := by
  obtain ⟨ys, n, h1, s, a, -⟩ := modify_covers (x86 := x86) (h := fun _ b => b) (fun _ _ => rfl) xs t
  rw [h1]
  have hid (k : Nat) (p : List (List UInt8)) : after (fun _ b => b) k p = p := by
    induction p generalizing k with
    | nil => rfl
    | cons x p ih => rw [after, ih]
  rw [hid] at a
  exact (sameType_ext s a.symm).symm

private theorem sameType_parts {xs ys : List Obj} (hs : List.Forall₂ SameType xs ys) :
    List.Forall₂ (fun p q : List UInt8 => p.length = q.length) (xs.flatMap parts) (ys.flatMap parts) := by
  induction hs with
  | nil => exact .nil
  | @cons x y xs ys h1 h2 ih =>
    rw [List.flatMap_cons, List.flatMap_cons]
    refine List.rel_append ?_ ih
    cases h1 with
    | leaf h => exact .cons h.2 .nil
    | tuple h =>
      simp only [parts]
      exact List.forall₂_map_left_iff.2 (List.forall₂_map_right_iff.2 (h.imp fun _ _ h => h.2))
    | wrapped h => exact .cons h.2 .nil
    | plain h => exact .cons h.2 .nil
    | virSimd h => exact .cons h .nil

private theorem sameLeaves_trans {xs ys zs : List Leaf} (h1 : List.Forall₂ SameLeaf xs zs) (h2 : List.Forall₂ SameLeaf xs ys) :
    List.Forall₂ SameLeaf zs ys := by
  induction h1 generalizing ys with
  | nil => cases h2; exact .nil
  | cons a _ ih =>
    cases h2 with
    | cons b h2 => exact .cons ⟨a.1.symm.trans b.1, a.2.symm.trans b.2⟩ (ih h2)

private theorem sameTypes_trans {xs ys zs : List Obj} (h1 : List.Forall₂ SameType xs zs) (h2 : List.Forall₂ SameType xs ys) :
    List.Forall₂ SameType zs ys := by
  induction h1 generalizing ys with
  | nil => cases h2; exact .nil
  | cons a _ ih =>
    cases h2 with
    | cons b h2 =>
      refine .cons ?_ (ih h2)
      cases a with
      | leaf a => cases b with | leaf b => exact .leaf ⟨a.1.symm.trans b.1, a.2.symm.trans b.2⟩
      | wrapped a => cases b with | wrapped b => exact .wrapped ⟨a.1.symm.trans b.1, a.2.symm.trans b.2⟩
      | plain a => cases b with | plain b => exact .plain ⟨a.1.symm.trans b.1, a.2.symm.trans b.2⟩
      | virSimd a => cases b with | virSimd b => exact .virSimd (a.symm.trans b)
      | tuple a => cases b with | tuple b => exact .tuple (sameLeaves_trans a b)

/-- **C90 (`fake_modify`).** Whatever the values of the arguments were, the compiler has to expect all values of their types
afterwards. -/
theorem fakeModify_arbitrary {xs ys : List Obj} (hs : List.Forall₂ SameType xs ys) :
    ∃ h, Havoc h ∧ (fakeModify x86 h xs []).1 = ys := by
  let h : Nat → List UInt8 → List UInt8 := fun k b =>
    let q := (ys.flatMap parts).getD k []
    if q.length = b.length then q else b
  have hh : Havoc h := by
    intro k b
    simp only [h]
    split
    · assumption
    · rfl
  refine ⟨h, hh, ?_⟩
  obtain ⟨zs, n, h1, s, a, -⟩ := modify_covers (x86 := x86) hh xs []
  rw [h1]
  have key (pre p q : List (List UInt8)) (hq : ys.flatMap parts = pre ++ q)
      (hf : List.Forall₂ (fun p q : List UInt8 => p.length = q.length) p q) : after h pre.length p = q := by
    induction hf generalizing pre with
    | nil => rfl
    | @cons x y p q h1 h2 ih =>
      rw [after]
      have := ih (pre ++ [y]) (by rw [hq]; simp)
      rw [List.length_append, List.length_singleton] at this
      rw [this]
      congr 1
      simp only [h, hq]
      simp [h1]
  replace a : zs.flatMap parts = ys.flatMap parts := a.trans (key [] _ _ rfl (sameType_parts hs))
  exact sameType_ext (sameTypes_trans s hs) a

-- a simd of two registers and a float
example : fakeRead true [.tuple [⟨false, List.replicate 16 1⟩, ⟨false, List.replicate 8 2⟩], .leaf ⟨true, [1, 2, 3, 4]⟩] [] =
    [⟨false, [.v, .x, .g, .m], List.replicate 16 1⟩, ⟨false, [.g], List.replicate 8 2⟩, ⟨false, [.v, .x, .g, .m], [1, 2, 3, 4]⟩] := by
  decide
example : (fakeModify false (fun k b => b.map (· + k.toUInt8)) [.virSimd [1, 2], .wrapped ⟨false, [3]⟩] []).1 =
    [.virSimd [1, 2], .wrapped ⟨false, [4]⟩] := by decide
example : List.Forall₂ SameType [.virSimd [1, 2], .wrapped ⟨false, [3]⟩] [.virSimd [7, 8], .wrapped ⟨false, [9]⟩] :=
  .cons (.virSimd rfl) (.cons (.wrapped ⟨rfl, rfl⟩) .nil)

/-! ## The theorems applied to concrete data -/

private theorem addsIndex : Havoc fun k b => b.map (· + k.toUInt8) := by intro k b; simp

example := fakeRead_determines (x86 := true) (xs := [.virSimd [1, 2]]) (ys := [.virSimd [1, 2]]) (.cons (.virSimd rfl) .nil) rfl
example := fakeModify_all (x86 := true) addsIndex [.virSimd [1, 2], .wrapped ⟨false, [3]⟩] []
example := fakeModify_arbitrary (x86 := true) (xs := [.virSimd [1, 2], .wrapped ⟨false, [3]⟩])
  (ys := [.virSimd [7, 8], .wrapped ⟨false, [9]⟩]) (.cons (.virSimd rfl) (.cons (.wrapped ⟨rfl, rfl⟩) .nil))

end Vir.Benchmarking
