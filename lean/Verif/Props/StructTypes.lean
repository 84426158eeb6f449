import Verif.Model.StructTypes

/-!
# C92: `struct_element_t`, `as_tuple_t`, `as_pair_t`
-/

namespace Vir.StructTypes

open StructReflect (namesFor forPack structGetRows)

private theorem namesFor_le : ∀ n < 51, namesFor n = some (List.range n) := by decide

private theorem rows_bound : ∀ x ∈ structGetRows, x.1 ≤ 50 := by decide

private theorem namesFor_gt {n : Nat} (h : 50 < n) : namesFor n = none := by
  match n, h with
  | n + 3, h =>
    show structGetRows.lookup (n + 3) = none
    rw [List.lookup_eq_none_iff]
    intro x hx
    have := rows_bound x hx
    simp; omega

private theorem forPack_lookup {A : Type} : ∀ (names : List Nat) (rs : List A), names.Nodup → names.length = rs.length →
    ∀ env : List (Nat × A), (∀ x ∈ names, env.lookup x = (names.zip rs).lookup x) →
    forPack (typeOf env) names = .ok rs
  | [], [], _, _, _, _ => rfl
  | [], _ :: _, _, h, _, _ => by simp at h
  | _ :: _, [], _, h, _, _ => by simp at h
  | a :: names, r :: rs, hn, hl, env, he => by
    have ih := forPack_lookup names rs (List.nodup_cons.1 hn).2 (by simpa using hl) env (by
      intro x hx
      rw [he x (by simp [hx]), List.zip_cons_cons, List.lookup_cons]
      have : (x == a) = false := by
        simp only [beq_eq_false_iff_ne]
        rintro rfl
        exact (List.nodup_cons.1 hn).1 hx
      rw [this])
    rw [forPack, typeOf, he a (by simp), List.zip_cons_cons, List.lookup_cons]
    simp only [beq_self_eq_true, Outcome.bind_ok]
    rw [ih]
    rfl

private theorem bindTypes_eq (ms : List Member) (c v : Bool) (h : ms.length ≤ 50) :
    bindTypes ms c v = .ok (ms.map (access c v)) := by
  unfold bindTypes
  rw [namesFor_le _ (by omega)]
  simp only
  rw [if_neg (by simp [List.nodup_range])]
  exact forPack_lookup (List.range ms.length) (ms.map (access c v)) List.nodup_range (by simp) _ fun _ _ => rfl

private theorem bindTypes_gt (ms : List Member) (c v : Bool) (h : 50 < ms.length) : bindTypes ms c v = .ub .staticAssert := by
  unfold bindTypes
  rw [namesFor_gt h]

/-- **C92.** `struct_element_t<n, T>` has the type of member `n` (of what it refers to, if it is a reference). It is const exactly if that
type is, or `T` is and the member is neither a reference nor mutable, or `T` is and there is no other member; it is volatile exactly if
that type is, or `T` is and the member is no reference. -/
theorem structElement_spec (ms : List Member) (a : Arg) (h : ms.length ≤ 50) (n : Nat) (hn : n < ms.length) :
    ∃ t, structElement n ms a = .ok t ∧ t.base = ms[n].ty.base ∧
      (t.c = true ↔ ms[n].ty.c = true ∨ a.c = true ∧ (ms[n].kind = .obj ∧ ms[n].isMutable = false ∨ ms.length = 1)) ∧
      (t.v = true ↔ ms[n].ty.v = true ∨ a.v = true ∧ ms[n].kind = .obj) := by
  unfold structElement structGetType
  rw [if_pos hn, bindTypes_eq ms _ _ h]
  simp only [Outcome.bind_ok, List.getElem?_map, List.getElem?_eq_getElem hn, Option.map_some, Arg.isLvalue]
  generalize ms[n] = m
  obtain ⟨⟨b, mc, mv⟩, k, mu⟩ := m
  by_cases h1 : ms.length = 1
  · simp only [h1, ne_eq, not_true_eq_false, if_false, beq_self_eq_true, if_true]
    cases hc : a.c <;> cases k <;> simp [access]
  · simp only [ne_eq, h1, not_false_eq_true, if_true]
    cases k <;> simp [access]

private theorem structElement_plain (ms : List Member) (h : ms.length ≤ 50) (k : Kind) (n : Nat) (hn : n < ms.length) :
    structElement n ms ⟨false, false, k⟩ = .ok ms[n].ty := by
  obtain ⟨⟨b, c, v⟩, h1, h2, h3, h4⟩ := structElement_spec ms ⟨false, false, k⟩ h n hn
  rw [h1]
  simp only [Bool.false_eq_true, false_and, or_false] at h2 h3 h4
  have e3 : c = ms[n].ty.c := Bool.eq_iff_iff.2 h3
  have e4 : v = ms[n].ty.v := Bool.eq_iff_iff.2 h4
  rw [h2, e3, e4]

/-- A type: what it is or refers to, and whether it is a reference. -/
abbrev FullTy := Ty × Kind

/-- The declared type of a member. -/
def declared (m : Member) : FullTy := (m.ty, m.kind)

/-- **C92 (partial).** `struct_element_t<n, S>`, an object type, is the declared type of member `n` of the class `S`, for members that are no
references. -/
theorem structElement_partial (ms : List Member) (h : ms.length ≤ 50) (k : Kind) (n : Nat) (hn : n < ms.length)
    (hk : ms[n].kind = .obj) : ∃ t, structElement n ms ⟨false, false, k⟩ = .ok t ∧ declared ms[n] = (t, .obj) :=
  ⟨_, structElement_plain ms h k n hn, by rw [declared, hk]⟩

/-- **C92.** For all other members it is not. -/
theorem structElement_declared_iff (ms : List Member) (h : ms.length ≤ 50) (k : Kind) (n : Nat) (hn : n < ms.length) :
    (∃ t, structElement n ms ⟨false, false, k⟩ = .ok t ∧ declared ms[n] = (t, .obj)) ↔ ms[n].kind = .obj :=
  ⟨fun ⟨_, _, ht⟩ => congrArg Prod.snd ht, structElement_partial ms h k n hn⟩

/-- **C92 (what is missing).** For a member that is a reference, `struct_element_t` is not the type of the member: it is an object type
(the result type cannot be a reference), the one the reference refers to. In a const class with other members it is not const. -/
theorem structElement_ref (ms : List Member) (h : ms.length ≤ 50) (c : Bool) (k : Kind) (n : Nat) (hn : n < ms.length)
    (hk : ms[n].kind ≠ .obj) :
    structElement n ms ⟨c, false, k⟩ = .ok { ms[n].ty with c := ms[n].ty.c || (c && ms.length == 1) } := by
  obtain ⟨⟨b, c', v⟩, h1, h2, h3, h4⟩ := structElement_spec ms ⟨c, false, k⟩ h n hn
  rw [h1]
  simp only [Bool.false_eq_true, false_and, or_false, hk, false_or] at h2 h3 h4
  have e3 : c' = (ms[n].ty.c || (c && ms.length == 1)) := by
    rw [Bool.eq_iff_iff, h3]; simp
  have e4 : v = ms[n].ty.v := Bool.eq_iff_iff.2 h4
  rw [h2, e3, e4]

/-- **C92.** The result of `struct_get<n>` for an lvalue refers to a `struct_element_t`. For an rvalue this is so too, unless there is only
one member, where it is a reference to const (and ill-formed for a volatile rvalue). -/
theorem structGetType_spec (ms : List Member) (a : Arg) (h : ms.length ≤ 50) (n : Nat) (hn : n < ms.length) :
    (a.kind = .lval ∨ ms.length ≠ 1 → structGetType n ms a = structElement n ms a) ∧
    (a.kind ≠ .lval → ms.length = 1 → a.v = true → structGetType n ms a = .ub .staticAssert) ∧
    (a.kind ≠ .lval → ms.length = 1 → a.v = false → structGetType n ms a = structElement n ms { a with c := true }) := by
  have hb : ∀ c v, bindTypes ms c v = .ok (ms.map (access c v)) := fun c v => bindTypes_eq ms c v h
  refine ⟨?_, ?_, ?_⟩
  · rintro (hk | h1)
    · unfold structElement
      rw [← hk]
    · unfold structElement structGetType
      simp [hb, h1]
  · intro hk h1 hv
    unfold structGetType
    have : a.isLvalue = false := by simp [Arg.isLvalue, hk]
    rw [if_pos hn, hb]
    simp only [Outcome.bind_ok, List.getElem?_map, List.getElem?_eq_getElem hn, Option.map_some]
    simp [h1, this, hv]
  · intro hk h1 hv
    unfold structElement structGetType
    rw [if_pos hn, if_pos hn, hb, hb]
    simp only [Outcome.bind_ok, List.getElem?_map, List.getElem?_eq_getElem hn, Option.map_some]
    simp only [h1, ne_eq, not_true_eq_false, if_false, hv, Bool.false_eq_true, Arg.isLvalue, beq_self_eq_true, if_true]
    generalize ms[n] = m
    obtain ⟨⟨b, mc, mv⟩, k, mu⟩ := m
    cases k <;> simp [access, hk]

/-- **C92.** `as_tuple_t<T>` is a tuple with one element per member, in order, with the qualifiers and the reference of `T`. Its elements
have the types of the members without reference; they do not repeat a `const` of `T`, but they do repeat a `volatile` of `T`. -/
theorem asTuple_spec (ms : List Member) (a : Arg) (h : ms.length ≤ 50) (hv : a.v = true → a.kind = .lval) :
    ∃ t, asTuple ms a = .ok t ∧ t.c = a.c ∧ t.v = a.v ∧ t.kind = a.kind ∧ t.elems.length = ms.length ∧
      ∀ n (hn : n < ms.length), ∃ e, t.elems[n]? = some e ∧ e.base = ms[n].ty.base ∧ e.c = ms[n].ty.c ∧
        (e.v = true ↔ ms[n].ty.v = true ∨ a.v = true ∧ ms[n].kind = .obj) := by
  refine ⟨copyCvref a (ms.map (access false a.v)), ?_, ?_, ?_, ?_, ?_, ?_⟩
  · unfold asTuple toTupleTypes
    rw [if_neg (by simpa [Arg.isLvalue] using hv), bindTypes_eq ms _ _ h]
    rfl
  · unfold copyCvref; cases a.c <;> cases a.v <;> cases a.kind <;> rfl
  · unfold copyCvref; cases a.c <;> cases a.v <;> cases a.kind <;> rfl
  · unfold copyCvref; cases a.c <;> cases a.v <;> cases a.kind <;> rfl
  · unfold copyCvref; cases a.c <;> cases a.v <;> cases a.kind <;> simp
  · intro n hn
    have he : (copyCvref a (ms.map (access false a.v))).elems = ms.map (access false a.v) := by
      unfold copyCvref; cases a.c <;> cases a.v <;> cases a.kind <;> rfl
    rw [he]
    refine ⟨access false a.v ms[n], by simp [hn], ?_⟩
    generalize ms[n] = m
    obtain ⟨⟨b, mc, mv⟩, k, mu⟩ := m
    cases k <;> simp [access]

/-- **C92.** `as_tuple_t<T>` exists exactly if there are at most 50 members and `T` is not volatile or an lvalue reference. -/
theorem asTuple_exists (ms : List Member) (a : Arg) :
    (∃ t, asTuple ms a = .ok t) ↔ ms.length ≤ 50 ∧ (a.v = true → a.kind = .lval) := by
  constructor
  · rintro ⟨t, ht⟩
    unfold asTuple toTupleTypes at ht
    by_cases hv : (a.v && !a.isLvalue) = true
    · rw [if_pos hv, Outcome.bind_ub] at ht
      exact absurd ht (by simp)
    · rw [if_neg hv] at ht
      refine ⟨Nat.not_lt.1 fun hl => ?_, by simpa [Arg.isLvalue] using hv⟩
      rw [bindTypes_gt ms _ _ hl, Outcome.bind_ub] at ht
      exact absurd ht (by simp)
  · rintro ⟨h1, h2⟩
    obtain ⟨t, ht, _⟩ := asTuple_spec ms a h1 h2
    exact ⟨t, ht⟩

/-- **C92.** `as_pair_t` is `as_tuple_t` for two members, and does not exist otherwise. -/
theorem asPair_spec (ms : List Member) (a : Arg) :
    asPair ms a = if ms.length = 2 then asTuple ms a else .ub .staticAssert := by
  unfold asPair asTuple
  by_cases h : ms.length = 2 <;> simp [h]

/-- **C92.** Reflecting the tuple again yields the same element types: `struct_element_t<n, as_tuple_t<S>>` is `struct_element_t<n, S>`. -/
theorem structElement_asTuple (ms : List Member) (h : ms.length ≤ 50) (n : Nat) (hn : n < ms.length) (t : TupleTy)
    (ht : asTuple ms {} = .ok t) : structElement n (tupleMembers t.elems) ⟨t.c, t.v, t.kind⟩ = structElement n ms {} := by
  obtain ⟨t', h1, h2, h3, h4, h5, h6⟩ := asTuple_spec ms {} h (by simp)
  obtain rfl : t = t' := Outcome.ok.inj (ht.symm.trans h1)
  obtain ⟨⟨eb, ec, ev⟩, e1, e2, e3, e4⟩ := h6 n hn
  obtain ⟨⟨b, c, v⟩, s1, s2, s3, s4⟩ := structElement_spec ms {} h n hn
  have hl : n < t.elems.length := by omega
  have hm : (tupleMembers t.elems)[n]'(by simpa [tupleMembers] using hl) = ⟨⟨eb, ec, ev⟩, .obj, false⟩ := by
    rw [List.getElem?_eq_getElem hl] at e1
    simp only [tupleMembers, List.getElem_map, Option.some.inj e1]
  rw [h2, h3, h4, structElement_plain _ (by simpa [tupleMembers, h5] using h) _ n (by simpa [tupleMembers] using hl), hm, s1]
  simp only [Bool.false_eq_true, false_and, or_false] at s3 s4 e4 e2 e3 s2
  have q1 : c = ms[n].ty.c := Bool.eq_iff_iff.2 s3
  have q2 : v = ms[n].ty.v := Bool.eq_iff_iff.2 s4
  have q3 : ev = ms[n].ty.v := Bool.eq_iff_iff.2 e4
  rw [e2, e3, q3, s2, q1, q2]

/-! ## The theorems applied to concrete data -/

/-- `struct S { int a; const float b; double& c; mutable char d; };` -/
private def exS : List Member :=
  [{ ty := ⟨0, false, false⟩ }, { ty := ⟨1, true, false⟩ }, { ty := ⟨2, false, false⟩, kind := .lval }, { ty := ⟨3, false, false⟩, isMutable := true }]

-- struct_element_t<0, const S> is const int, <2, const S> is double, <3, const S> is char
example : (List.range 4).map (fun n => structElement n exS { c := true }) =
    [.ok ⟨0, true, false⟩, .ok ⟨1, true, false⟩, .ok ⟨2, false, false⟩, .ok ⟨3, false, false⟩] := by decide
-- as_tuple_t<const S&> is const tuple<int, const float, double, char>&
example : asTuple exS ⟨true, false, .lval⟩ =
    .ok ⟨[⟨0, false, false⟩, ⟨1, true, false⟩, ⟨2, false, false⟩, ⟨3, false, false⟩], true, false, .lval⟩ := by decide
-- as_tuple_t<volatile S> does not exist
example : asTuple exS ⟨false, true, .obj⟩ = .ub .staticAssert := by decide

example := structElement_spec exS { c := true } (by decide) 2 (by decide)
example := structElement_partial exS (by decide) .rval 1 (by decide) rfl
example : ¬ ∃ t, structElement 2 exS {} = .ok t ∧ declared exS[2] = (t, .obj) :=
  fun h => absurd ((structElement_declared_iff exS (by decide) .obj 2 (by decide)).1 h) (by decide)
example := structElement_ref exS (by decide) true .obj 2 (by decide) (by decide)
example := structGetType_spec [{ ty := ⟨4, false, false⟩ }] { v := true } (by decide) 0 (by decide)
example := asTuple_spec exS ⟨true, false, .lval⟩ (by decide) (by decide)
example : ∃ t, asTuple exS ⟨false, true, .lval⟩ = .ok t := (asTuple_exists exS _).2 (by decide)
example := asPair_spec (exS.take 2) { c := true }
example := structElement_asTuple exS (by decide) 1 (by decide) _ rfl

end Vir.StructTypes
