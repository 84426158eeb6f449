import Verif.Model.StructMembers
import Verif.Props.StructSize
import Verif.Props.StructReflect

/-!
# C83: the number of members of a class
-/

namespace Vir.StructMembers
open StructReflect (Obj Ref)

/-- The base classes are empty, and only objects of their own type initialise them. -/
def EmptyBases (T : Class) : Prop := ∀ b ∈ T.bases, b.empty = true ∧ b.braced = false

/-- No data member has the type of an empty base. -/
def NoBaseMembers (T : Class) : Prop := ∀ m ∈ T.members, m.fromEmptyBase = false

private theorem init_braced (n : Nat) : ∀ es : List Element,
    aggregateInit (List.replicate n .braced) es = true ↔
      n ≤ es.length ∧ (∀ i (h : i < es.length), i < n → es[i].braced = true) ∧ ∀ i (h : i < es.length), n ≤ i → es[i].dflt = true := by
  induction n with
  | zero =>
    intro es
    simp only [List.replicate_zero, aggregateInit, List.all_eq_true, Nat.zero_le, true_and, Nat.not_lt_zero, false_implies,
      implies_true, forall_const]
    constructor
    · exact fun h i hi => h _ (List.getElem_mem hi)
    · intro h e he
      obtain ⟨i, hi, rfl⟩ := List.mem_iff_getElem.1 he
      exact h i hi
  | succ n ih =>
    intro es
    cases es with
    | nil => simp [List.replicate_succ, aggregateInit]
    | cons e es =>
      rw [List.replicate_succ, aggregateInit, Bool.and_eq_true, ih es]
      simp only [Clause.initialises, List.length_cons]
      constructor
      · rintro ⟨h0, h1, h2, h3⟩
        refine ⟨by omega, ?_, ?_⟩
        · intro i hi hn
          cases i with
          | zero => exact h0
          | succ i => exact h2 i (by simpa using hi) (by omega)
        · intro i hi hn
          cases i with
          | zero => omega
          | succ i => exact h3 i (by simpa using hi) (by omega)
      · rintro ⟨h1, h2, h3⟩
        refine ⟨h2 0 (by simp) (by omega), by omega, ?_, ?_⟩
        · intro i hi hn
          exact h2 (i + 1) (by simpa using hi) (by omega)
        · intro i hi hn
          exact h3 (i + 1) (by simpa using hi) (by omega)

/-- With as many leading clauses as there are bases, the rest initialises the members. -/
private theorem init_bases (n : Nat) (ms : List Element) : ∀ bs : List Base, (∀ b ∈ bs, b.empty = true ∧ b.braced = false) →
    aggregateInit (List.replicate bs.length .emptyBase ++ List.replicate n .braced)
      (bs.map (fun b => (⟨b.empty, b.braced, b.dflt⟩ : Element)) ++ ms) = aggregateInit (List.replicate n .braced) ms
  | [], _ => by simp
  | b :: bs, h => by
    rw [List.length_cons, List.replicate_succ, List.map_cons, List.cons_append, List.cons_append, aggregateInit,
      init_bases n ms bs fun b hb => h b (by simp [hb])]
    simp [Clause.initialises, (h b (by simp)).1]

/-- With fewer leading clauses, a braced clause reaches a base. -/
private theorem init_few (ms : List Element) : ∀ (k : Nat) (bs : List Base), (∀ b ∈ bs, b.empty = true ∧ b.braced = false) →
    k < bs.length → ∀ n, aggregateInit (List.replicate k .emptyBase ++ List.replicate n .braced)
      (bs.map (fun b => (⟨b.empty, b.braced, b.dflt⟩ : Element)) ++ ms) = true → n = 0 ∧ ms.all (·.dflt) = true
  | _, [], _, h, _, _ => by simp at h
  | 0, b :: bs, hb, _, n, h => by
    cases n with
    | zero =>
      refine ⟨rfl, ?_⟩
      simp only [List.replicate_zero, List.append_nil, aggregateInit, List.all_append, Bool.and_eq_true] at h
      exact h.2
    | succ n =>
      simp [List.replicate_succ, aggregateInit, Clause.initialises, (hb b (by simp)).2] at h
  | k + 1, b :: bs, hb, hk, n, h => by
    rw [List.replicate_succ, List.map_cons, List.cons_append, List.cons_append, aggregateInit, Bool.and_eq_true] at h
    exact init_few ms k bs (fun b h' => hb b (by simp [h'])) (by simpa using hk) n h.2

/-- With more leading clauses, one of them reaches a member or goes beyond the last element. -/
private theorem init_many (ms : List Element) (hm : ∀ m ∈ ms, m.fromEmptyBase = false) : ∀ (k : Nat) (bs : List Base), bs.length < k →
    ∀ n, aggregateInit (List.replicate k .emptyBase ++ List.replicate n .braced)
      (bs.map (fun b => (⟨b.empty, b.braced, b.dflt⟩ : Element)) ++ ms) = false
  | 0, _, h, _ => by simp at h
  | k + 1, [], _, n => by
    cases ms with
    | nil => simp [List.replicate_succ, aggregateInit]
    | cons m ms => simp [List.replicate_succ, aggregateInit, Clause.initialises, hm m (by simp)]
  | k + 1, b :: bs, hk, n => by
    rw [List.replicate_succ, List.map_cons, List.cons_append, List.cons_append, aggregateInit,
      init_many ms hm k bs (by simpa using hk) n, Bool.and_false]

/-- **C83.** Which numbers of initialisers a class with at most three empty bases accepts: those for which every member with an
initialiser accepts it and every other member has a default. -/
theorem accepts_iff (T : Class) (hb : EmptyBases T) (h3 : T.bases.length ≤ 3) (hm : NoBaseMembers T) (n : Nat) :
    T.accepts n = true ↔ n ≤ T.members.length ∧ (∀ i (h : i < T.members.length), i < n → T.members[i].braced = true) ∧
      ∀ i (h : i < T.members.length), n ≤ i → T.members[i].dflt = true := by
  rw [← init_braced, ← init_bases n T.members T.bases hb]
  unfold Class.accepts
  rw [List.any_eq_true]
  constructor
  · rintro ⟨k, -, hk⟩
    rcases Nat.lt_trichotomy k T.bases.length with h | h | h
    · obtain ⟨rfl, hd⟩ := init_few T.members k T.bases hb h n hk
      rw [init_bases 0 T.members T.bases hb]
      exact hd
    · rw [← h]; exact hk
    · have hf := init_many T.members hm k T.bases h n
      exact absurd (hf.symm.trans hk) (by simp)
  · intro h
    refine ⟨T.bases.length, ?_, h⟩
    have : T.bases.length = 0 ∨ T.bases.length = 1 ∨ T.bases.length = 2 ∨ T.bases.length = 3 := by omega
    rcases this with h | h | h | h <;> simp [h]

/-- **C83.** The number found for a class with at most three empty bases, exactly: if every member accepts an initialiser it is the
number of members, whichever members have defaults. -/
theorem structSizeOf_members (T : Class) (sizeofT : Nat) (hb : EmptyBases T) (h3 : T.bases.length ≤ 3) (hm : NoBaseMembers T)
    (ha : ∀ m ∈ T.members, m.braced = true) (hs : 0 < sizeofT) (hfit : T.members.length ≤ 8 * sizeofT) :
    structSizeOf T sizeofT = .ok T.members.length := by
  have key := accepts_iff T hb h3 hm
  obtain ⟨r, h1, h2, hr⟩ := StructSize.structSizeV_largest T.accepts sizeofT hs fun a b c hab hbc _ h1 h2 => by
    rw [key] at h1 h2 ⊢
    exact ⟨by omega, fun i hi hn => h2.2.1 i hi (by omega), fun i hi hn => h1.2.2 i hi (by omega)⟩
  have hl : T.accepts T.members.length = true :=
    (key _).2 ⟨Nat.le_refl _, fun i hi _ => ha _ (List.getElem_mem hi), fun i hi hn => by omega⟩
  have := h2 _ hfit hl
  unfold structSizeOf
  rw [h1]
  rcases hr with ⟨_, g⟩ | ⟨_, g⟩
  · have := ((key r).1 g).1
    congr 1; omega
  · rw [g _ hfit] at hl; cases hl

/-- **C83.** Otherwise it is the number of members before the first one that does not accept an initialiser, if that member and all
after it have defaults, and zero if not. -/
theorem structSizeOf_rejecting (T : Class) (sizeofT : Nat) (hb : EmptyBases T) (h3 : T.bases.length ≤ 3) (hm : NoBaseMembers T)
    (j : Nat) (hj : j < T.members.length) (hrej : T.members[j].braced = false)
    (hfirst : ∀ i (h : i < j), (T.members[i]'(by omega)).braced = true) (hs : 0 < sizeofT) (hfit : j ≤ 8 * sizeofT) :
    structSizeOf T sizeofT = .ok (if ∀ i (h : i < T.members.length), j ≤ i → T.members[i].dflt = true then j else 0) := by
  have key := accepts_iff T hb h3 hm
  have hle (n : Nat) (h : T.accepts n = true) : n ≤ j := by
    rcases Nat.lt_or_ge j n with h' | h'
    · have := ((key n).1 h).2.1 j hj h'
      rw [hrej] at this; cases this
    · exact h'
  obtain ⟨r, h1, h2, hr⟩ := StructSize.structSizeV_largest T.accepts sizeofT hs fun a b c hab hbc _ h1 h2 => by
    rw [key] at h1 h2 ⊢
    exact ⟨by omega, fun i hi hn => h2.2.1 i hi (by omega), fun i hi hn => h1.2.2 i hi (by omega)⟩
  unfold structSizeOf
  rw [h1]
  congr 1
  split
  · rename_i hd
    have hl : T.accepts j = true := (key j).2 ⟨by omega, fun i hi hn => hfirst i hn, hd⟩
    have := h2 j hfit hl
    rcases hr with ⟨_, g⟩ | ⟨_, g⟩
    · have := hle r g; omega
    · rw [g _ hfit] at hl; cases hl
  · rename_i hd
    rcases hr with ⟨_, g⟩ | ⟨g, _⟩
    · refine absurd (fun i hi hn => ?_) hd
      exact ((key r).1 g).2.2 i hi (by have := hle r g; omega)
    · exact g

/-- **C83, limit of the claim.** With more than three empty bases the result is zero, whatever the members are. -/
theorem structSizeOf_many_bases (T : Class) (sizeofT : Nat) (hb : EmptyBases T) (h3 : 3 < T.bases.length) (hs : 0 < sizeofT) :
    structSizeOf T sizeofT = .ok 0 := by
  have key (n : Nat) (h : T.accepts n = true) : n = 0 := by
    unfold Class.accepts at h
    rw [List.any_eq_true] at h
    obtain ⟨k, hk, h⟩ := h
    have : k < T.bases.length := by
      simp at hk; omega
    exact (init_few T.members k T.bases hb this n h).1
  obtain ⟨r, h1, h2, hr⟩ := StructSize.structSizeV_largest T.accepts sizeofT hs fun a b c hab hbc _ h1 h2 => by
    have e1 := key _ h1
    have e2 := key _ h2
    have : b = a := by omega
    rw [this]; exact h1
  unfold structSizeOf
  rw [h1]
  rcases hr with ⟨_, g⟩ | ⟨g, _⟩
  · rw [key r g]
  · rw [g]

/-- **C83, false for derived classes.** A class without members of its own, with one base class that is an aggregate with members, is
documented as supported (`/repo/vir/struct_reflect.h` 411-421: the number of identifiers of a structured binding). The result is one,
whatever the number of members of the base. -/
theorem structSizeOf_derived (b : Base) (sizeofT : Nat) (he : b.empty = false) (hb : b.braced = true) (hs : 0 < sizeofT) :
    structSizeOf { bases := [b], members := [] } sizeofT = .ok 1 := by
  have key (n : Nat) : Class.accepts { bases := [b], members := [] } n = true ↔ n = 1 ∨ n = 0 ∧ b.dflt = true := by
    unfold Class.accepts
    match n with
    | 0 => simp [Class.elements, aggregateInit, Clause.initialises, List.replicate, he]
    | 1 => simp [Class.elements, aggregateInit, Clause.initialises, List.replicate, he, hb]
    | n + 2 => simp [Class.elements, aggregateInit, Clause.initialises, List.replicate, he, hb]
  obtain ⟨r, h1, h2, hr⟩ := StructSize.structSizeV_largest (Class.accepts { bases := [b], members := [] }) sizeofT hs
    fun a c d hac hcd _ h1 h2 => by
      rw [key] at h1 h2 ⊢
      rcases h1 with h1 | h1
      · exact .inl (by omega)
      · have : c = 0 ∨ c = 1 := by omega
        rcases this with h | h
        · exact .inr ⟨h, h1.2⟩
        · exact .inl h
  unfold structSizeOf
  rw [h1]
  have hl := (key 1).2 (.inl rfl)
  have := h2 1 (by omega) hl
  rcases hr with ⟨_, g⟩ | ⟨_, g⟩
  · rcases (key r).1 g with h | h
    · rw [h]
    · omega
  · rw [g 1 (by omega)] at hl; cases hl

/-- **C83.** A plain struct, whose members are of arithmetic type or again plain structs with at least one member, has the size it
should have, however deep the nesting. -/
theorem structSizeOf_plain (fields : List Field) (sizeofT : Nat) (hne : ∀ f ∈ fields, f ≠ .struct []) (hs : 0 < sizeofT)
    (hfit : fields.length ≤ 8 * sizeofT) : structSizeOf (plainStruct fields) sizeofT = .ok fields.length := by
  have hel : ∀ f ∈ fields, f.element = {} := fun f hf => by
    match f, hne f hf with
    | .arith, _ => rfl
    | .struct (_ :: _), _ => rfl
    | .struct [], h => exact absurd rfl h
  have := structSizeOf_members (plainStruct fields) sizeofT (by intro b hb; cases hb) (by simp [plainStruct])
    (by
      intro m hm
      obtain ⟨f, hf, rfl⟩ := List.mem_map.1 hm
      rw [hel f hf])
    (by
      intro m hm
      obtain ⟨f, hf, rfl⟩ := List.mem_map.1 hm
      rw [hel f hf])
    hs (by simpa [plainStruct] using hfit)
  simpa [plainStruct] using this

/-- **C83, limit of the claim.** Members from the first empty struct on are not counted. -/
theorem structSizeOf_plain_empty (before after : List Field) (sizeofT : Nat) (hne : ∀ f ∈ before, f ≠ .struct []) (hs : 0 < sizeofT)
    (hfit : before.length ≤ 8 * sizeofT) :
    structSizeOf (plainStruct (before ++ .struct [] :: after)) sizeofT = .ok before.length := by
  have hd (f : Field) : f.element.dflt = true := by
    match f with
    | .arith => rfl
    | .struct (_ :: _) => rfl
    | .struct [] => rfl
  have hf (f : Field) : f.element.fromEmptyBase = false := by
    match f with
    | .arith => rfl
    | .struct (_ :: _) => rfl
    | .struct [] => rfl
  rw [structSizeOf_rejecting _ sizeofT (by intro b hb; cases hb) (by simp [plainStruct])
    (by
      intro m hm
      obtain ⟨f, _, rfl⟩ := List.mem_map.1 hm
      exact hf f)
    before.length (by simp [plainStruct]) (by simp [plainStruct, Field.element]) ?_ hs hfit]
  · rw [if_pos]
    intro i hi _
    simp only [plainStruct, List.getElem_map]
    exact hd _
  · intro i hi
    simp only [plainStruct, List.getElem_map]
    rw [List.getElem_append_left hi]
    have := hne _ (List.getElem_mem hi)
    match hb : before[i], this with
    | .arith, _ => rfl
    | .struct (_ :: _), _ => rfl
    | .struct [], h => exact absurd rfl h

private theorem structGetOf_eq (T : Class) (sizeofT n : Nat) (o : Obj) (h : structSizeOf T sizeofT = .ok o.members.length) :
    structGetOf T sizeofT n o = StructReflect.structGet n o := by
  unfold structGetOf StructReflect.structGet StructReflect.destructure
  rw [h, Outcome.bind_ok]
  split
  · cases StructReflect.namesFor o.members.length with
    | none => rfl
    | some names =>
      simp only
      rw [Outcome.bind_assoc]
      rfl
  · rfl

/-- **C83.** For a class with at most three empty bases whose members all accept an initialiser, `struct_get<n>` chosen by
`struct_size_v` is the access to member `n` of C65. -/
theorem structGetOf_members (T : Class) (sizeofT : Nat) (hb : EmptyBases T) (h3 : T.bases.length ≤ 3) (hm : NoBaseMembers T)
    (ha : ∀ m ∈ T.members, m.braced = true) (hs : 0 < sizeofT) (hfit : T.members.length ≤ 8 * sizeofT)
    (o : Obj) (ho : o.members.length = T.members.length) (h50 : T.members.length ≤ 50) (n : Nat) (hn : n < T.members.length) :
    ∃ r, structGetOf T sizeofT n o = .ok r ∧ r.cell = (o.members[n]'(by omega)).cell := by
  rw [structGetOf_eq T sizeofT n o (by rw [ho]; exact structSizeOf_members T sizeofT hb h3 hm ha hs hfit)]
  obtain ⟨r, h1, h2, _⟩ := StructReflect.structGet_spec o (by omega) n (by omega)
  exact ⟨r, h1, h2⟩

/-- **C83, false for derived classes.** `struct_get` of an object whose members are those of its only base, if they are not exactly one,
is ill-formed for every index. -/
theorem structGetOf_derived (b : Base) (sizeofT : Nat) (he : b.empty = false) (hb : b.braced = true) (hs : 0 < sizeofT)
    (o : Obj) (ho : o.members.length ≠ 1) (n : Nat) :
    structGetOf { bases := [b], members := [] } sizeofT n o = .ub .staticAssert := by
  unfold structGetOf
  rw [structSizeOf_derived b sizeofT he hb hs, Outcome.bind_ok]
  split
  · simp only [StructReflect.namesFor, StructReflect.bindNames, List.length_cons, List.length_nil]
    rw [if_pos (by omega)]
    rfl
  · rfl

/-! ### the theorems are about something -/

/-- `struct S : E1, E2 { float& a; int b; double c = 1; };` -/
private def exS : Class := { bases := [{}, {}], members := [{ dflt := false }, {}, {}] }

example : structSizeOf exS 24 = .ok 3 :=
  structSizeOf_members exS 24 (by intro b hb; simp [exS] at hb; subst hb; exact ⟨rfl, rfl⟩) (by decide)
    (by intro m hm; simp [exS] at hm; rcases hm with rfl | rfl <;> rfl)
    (by intro m hm; simp [exS] at hm; rcases hm with rfl | rfl <;> rfl) (by decide) (by decide)
example : structSizeOf exS 24 = .ok 3 := by decide +kernel
/-- Accepted with one, two or three initialisers only, because of the reference. -/
example : (List.range 6).map exS.accepts = [false, true, true, true, false, false] := by decide
/-- Four empty bases. -/
example : structSizeOf { bases := [{}, {}, {}, {}], members := [{}, {}] } 8 = .ok 0 := by decide +kernel
/-- `struct B { int x, y; }; struct D : B {};` -/
example : structSizeOf { bases := [{ empty := false, braced := true }], members := [] } 8 = .ok 1 := by decide +kernel
example : structGetOf { bases := [{ empty := false, braced := true }], members := [] } 8 0 { members := [⟨0, false, false, true⟩, ⟨1, false, false, true⟩] } =
    .ub .staticAssert := structGetOf_derived _ _ rfl rfl (by decide) _ (by decide) 0
/-- `struct { int a; struct { float x, y; } p; };` and the same with an empty struct between. -/
example : structSizeOf (plainStruct [.arith, .struct [.arith, .arith]]) 12 = .ok 2 := by decide +kernel
example : structSizeOf (plainStruct [.arith, .struct [], .struct [.arith, .arith]]) 16 = .ok 1 := by decide +kernel
/-- A member after the rejecting one needs an initialiser: no number is accepted. -/
example : structSizeOf { members := [{}, { braced := false }, { dflt := false }] } 16 = .ok 0 := by decide +kernel

/-! ## The theorems applied to concrete data -/

private theorem exS_bases : EmptyBases exS := by intro b hb; simp [exS] at hb; subst hb; exact ⟨rfl, rfl⟩
private theorem exS_plain : NoBaseMembers exS := by intro m hm; simp [exS] at hm; rcases hm with rfl | rfl <;> rfl

example := accepts_iff exS exS_bases (by decide) exS_plain 2
example := structSizeOf_rejecting { members := [{}, { braced := false }, {}] } 16 (by intro b hb; cases hb) (by decide)
  (by intro m hm; simp at hm; rcases hm with rfl | rfl | rfl <;> rfl) 1 (by decide) rfl (by intro i hi; match i, hi with | 0, _ => rfl) (by decide) (by decide)
example := structSizeOf_many_bases { bases := [{}, {}, {}, {}], members := [{}, {}] } 8 (by intro b hb; simp at hb; subst hb; exact ⟨rfl, rfl⟩)
  (by decide) (by decide)
example := structSizeOf_derived { empty := false, braced := true } 8 rfl rfl (by decide)
example := structSizeOf_plain [.arith, .struct [.arith, .arith]] 12 (by simp) (by decide) (by decide)
example := structSizeOf_plain_empty [.arith] [.struct [.arith, .arith]] 16 (by simp) (by decide) (by decide)
example := structGetOf_members exS 24 exS_bases (by decide) exS_plain (by intro m hm; simp [exS] at hm; rcases hm with rfl | rfl <;> rfl) (by decide) (by decide)
  { members := [{ cell := 2 }, { cell := 3 }, { cell := 4 }] } rfl (by decide) 1 (by decide)

end Vir.StructMembers
