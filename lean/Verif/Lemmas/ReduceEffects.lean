import Verif.Spec.ReduceEffects
import Verif.Lemmas.TransformReduceMain

namespace Vir
open Spec ForEach

namespace Eff

variable {σ A B : Type}

theorem bind_def (m : Eff σ A) (f : A → Eff σ B) (s : σ) :
    (m >>= f) s = match m s with
      | .ok (s', some a) => f a s'
      | .ok (s', none) => .ok (s', none)
      | .ub r => .ub r
      | .trap => .trap := rfl

theorem pure_def (a : A) (s : σ) : (pure a : Eff σ A) s = .ok (s, some a) := rfl

theorem lift_ok (a : A) : (lift (.ok a) : Eff σ A) = pure a := rfl

theorem pure_bind' (a : A) (f : A → Eff σ B) : ((pure a : Eff σ A) >>= f) = f a := rfl

/-- From states satisfying `I p v` the code `m` ends in a state satisfying `I q u` with a value satisfying `Q`, or throws and ends in
a state satisfying `X`, or is undefined for a reason satisfying `U`. -/
def Tri (I : Nat → Nat → σ → Prop) (X : σ → Prop) (U : UB → Prop) (p v q u : Nat) (Q : A → Prop) (m : Eff σ A) : Prop :=
  ∀ s, I p v s → (∃ s' a, m s = .ok (s', some a) ∧ I q u s' ∧ Q a) ∨ (∃ s', m s = .ok (s', none) ∧ X s') ∨ (∃ r, m s = .ub r ∧ U r)

variable {I : Nat → Nat → σ → Prop} {X : σ → Prop} {U : UB → Prop}

theorem Tri.ret {p v : Nat} {Q : A → Prop} (a : A) (h : Q a) : Tri I X U p v p v Q (pure a : Eff σ A) :=
  fun s hs => Or.inl ⟨s, a, rfl, hs, h⟩

theorem Tri.bind {p v q u r w : Nat} {Q : A → Prop} {Q' : B → Prop} {m : Eff σ A} {f : A → Eff σ B} (hm : Tri I X U p v q u Q m)
    (hf : ∀ a, Q a → Tri I X U q u r w Q' (f a)) : Tri I X U p v r w Q' (m >>= f) := by
  intro s hs
  rw [bind_def]
  rcases hm s hs with ⟨s', a, h1, h2, h3⟩ | ⟨s', h1, h2⟩ | ⟨r, h1, h2⟩
  · rw [h1]; exact hf a h3 s' h2
  · rw [h1]; exact Or.inr (Or.inl ⟨s', rfl, h2⟩)
  · rw [h1]; exact Or.inr (Or.inr ⟨r, rfl, h2⟩)

theorem Tri.imp {p v q u : Nat} {Q Q' : A → Prop} {m : Eff σ A} (h : Tri I X U p v q u Q m) (hq : ∀ a, Q a → Q' a) :
    Tri I X U p v q u Q' m := by
  intro s hs
  rcases h s hs with ⟨s', a, h1, h2, h3⟩ | h
  · exact Or.inl ⟨s', a, h1, h2, hq a h3⟩
  · exact Or.inr h

theorem Tri.from {p v v' q u : Nat} {Q : A → Prop} {m : Eff σ A} (hv : v' = v) (h : Tri I X U p v q u Q m) :
    Tri I X U p v' q u Q m := hv ▸ h

end Eff

namespace TransformReduce
open Transform Eff

variable {σ α β τ : Type}

/-- Widths of the arguments of `transform_op`. -/
def WidthOk (size w : Nat) : Prop := w = size ∨ (∃ k, w = 2 ^ k) ∧ w < size

/-- What the basic operations do. The first index of `I` is the number of elements loaded, the second the number of elements and
accumulators that have been produced but not yet combined, not counting one: a load of `w` elements adds `w`, combining two simd objects
of `w` lanes removes `w`, and a horizontal reduction leaves one of its lanes. -/
structure Prims (I : Nat → Nat → σ → Prop) (X : σ → Prop) (U0 : UB → Prop) (t : TEnv) (ops : ROps σ α β τ) (ld : Loader σ β) : Prop where
  load : ∀ (aligned : Bool) (p w : Nat), (aligned = true → alignedAt t.e (p : Int) w = true) → p + w ≤ t.n → WidthOk t.e.size w →
    ∀ u, Tri I X U0 p u (p + w) (u + w) (fun v => v.length = w) (ld aligned w (p : Int) (p : Int))
  red : ∀ p u x y, x.length = y.length → x ≠ [] → Tri I X U0 p (u + x.length) p u (fun v => v.length = x.length) (redE ops x y)
  hredT : ∀ p u v, v ≠ [] → v.length ≤ t.e.size → Tri I X U0 p (u + v.length) p (u + 1) (fun _ => True) (hredTE ops v)
  hredB : ∀ p u v, v ≠ [] → v.length ≤ t.e.size → Tri I X U0 p (u + v.length) p (u + 1) (fun _ => True) (hredBE ops v)

variable {I : Nat → Nat → σ → Prop} {X : σ → Prop} {U0 : UB → Prop} {t : TEnv} {ops : ROps σ α β τ} {ld : Loader σ β}

theorem ne_nil_of_length {γ : Type} {l : List γ} {n : Nat} (h : l.length = n) (hn : 0 < n) : l ≠ [] := by
  intro h'; rw [h'] at h; simp at h; omega

theorem Prims.red' (pr : Prims I X U0 t ops ld) (p u w : Nat) {x y : List τ} (hx : x.length = w) (hy : y.length = w) (hw : 0 < w) :
    Tri I X U0 p (u + w) p u (fun v => v.length = w) (redE ops x y) := by
  subst hx
  exact pr.red p u x y hy.symm (ne_nil_of_length rfl hw)

theorem Prims.hredT' (pr : Prims I X U0 t ops ld) (p u w : Nat) {v : List τ} (hv : v.length = w) (hw : 0 < w)
    (hs : w ≤ t.e.size) : Tri I X U0 p (u + w) p (u + 1) (fun _ => True) (hredTE ops v) := by
  subst hv
  exact pr.hredT p u v (ne_nil_of_length rfl hw) hs

theorem Prims.hredB' (pr : Prims I X U0 t ops ld) (p u w : Nat) {v : List β} (hv : v.length = w) (hw : 0 < w)
    (hs : w ≤ t.e.size) : Tri I X U0 p (u + w) p (u + 1) (fun _ => True) (hredBE ops v) := by
  subst hv
  exact pr.hredB p u v (ne_nil_of_length rfl hw) hs

theorem red1E_tri (pr : Prims I X U0 t ops ld) (p u : Nat) (acc1 : τ) (y : List τ) (hy : y.length = 1) :
    Tri I X U0 p (u + 1) p u (fun _ => True) (red1E ops acc1 y) := by
  unfold red1E
  refine Tri.bind (pr.red p u [acc1] y (by simp [hy]) (by simp)) ?_
  intro r hr
  simp only [List.length_cons, List.length_nil, Nat.zero_add] at hr
  obtain ⟨v, rfl⟩ := List.length_eq_one_iff.1 hr
  exact Tri.ret _ trivial

theorem prologueRecE_tri (pr : Prims I X U0 t ops ld) (K tp k m : Nat) (ht : tp < 2 ^ K) (hK : 2 ^ K ≤ t.e.size)
    (hk : k + m = K + 1) (hm : 0 < m) (hal : AlignedSeq t.e (tp % 2 ^ k) (ascBits tp k m)) (hN : tp ≤ t.n) (u : Nat) (acc1 : τ) :
    Tri I X U0 (tp % 2 ^ k) u tp u (fun _ => True) (prologueRecE t ops ld (2 ^ K) tp k acc1) := by
  induction m generalizing k acc1 with
  | zero => omega
  | succ m ih =>
    unfold prologueRecE
    rw [if_neg (by simp [hasSingleBit_two_pow])]
    have hmod := mod_two_pow_succ' tp k
    simp only [ascBits] at hal
    have cont : ∀ acc', Tri I X U0 (tp % 2 ^ (k + 1)) u tp u (fun _ => True)
        (if _h : 2 ^ k < 2 ^ K then prologueRecE t ops ld (2 ^ K) tp (k + 1) acc' else pure acc') := by
      intro acc'
      by_cases hmz : m = 0
      · subst hmz
        have hkK : k = K := by omega
        rw [dif_neg (by rw [hkK]; omega)]
        have : tp % 2 ^ (k + 1) = tp := Nat.mod_eq_of_lt (by rw [hkK, Nat.pow_succ]; omega)
        rw [this]
        exact Tri.ret _ trivial
      · have h2 : 2 ^ k < 2 ^ K := Nat.pow_lt_pow_right (by omega) (by omega)
        rw [dif_pos h2]
        refine ih (k + 1) (by omega) (by omega) ?_ acc'
        rw [alignedSeq_append] at hal
        have := hal.2
        rw [hmod]
        cases hb : tp.testBit k
        · simpa [hb] using this
        · simpa [hb] using this
    by_cases hb : tp.testBit k = true
    · have hkK : 2 ^ k ≤ tp := Nat.ge_two_pow_of_testBit hb
      have hle : tp % 2 ^ (k + 1) ≤ tp := Nat.mod_le _ _
      simp only [hb, if_true] at hal hmod
      rw [if_pos ((and_two_pow_ne_zero k tp).2 hb)]
      simp only [List.cons_append, List.nil_append, AlignedSeq] at hal
      simp only [Nat.and_two_pow_sub_one_eq_mod]
      have hload := pr.load true (tp % 2 ^ k) (2 ^ k) (fun _ => hal.1) (by omega) (Or.inr ⟨⟨k, rfl⟩, by omega⟩) u
      rw [← hmod] at hload
      refine Tri.bind hload ?_
      intro v hv
      refine Tri.bind (pr.hredB' _ u _ hv (Nat.two_pow_pos k) (by omega)) ?_
      intro x _
      exact Tri.bind (red1E_tri pr _ _ _ _ rfl) (fun a _ => cont a)
    · have hb' : tp.testBit k = false := by simpa using hb
      simp only [hb', Bool.false_eq_true, if_false, Nat.add_zero] at hmod
      rw [if_neg (fun h => hb ((and_two_pow_ne_zero k tp).1 h)), ← hmod]
      exact Tri.bind (Tri.ret (Q := fun _ => True) _ trivial) (fun a _ => cont a)

theorem epilogueAccE_tri (pr : Prims I X U0 t ops ld) (aligned : Bool) (l k p : Nat)
    (hl : l % 2 ^ (k + 1) ≠ 0) (hp : p + l % 2 ^ (k + 1) ≤ t.n) (hw : 2 ^ k < t.e.size)
    (hal : aligned = true → AlignedSeq t.e p (descBits l (k + 1)))
    (u : Nat) (acc1 : τ) (acc : List τ) (hacc : acc.length = 2 ^ k) :
    Tri I X U0 p (u + 2 ^ k) (p + l % 2 ^ (k + 1)) u (fun _ => True) (epilogueAccE t ops ld aligned l k acc1 acc (p : Int) (p : Int)) := by
  induction k generalizing p acc with
  | zero =>
    have hb : l.testBit 0 = true := by
      rw [Nat.testBit_zero]; simp at hl; simp; omega
    have hl1 : l % 2 ^ (0 + 1) = 1 := by simp at hl ⊢; omega
    unfold epilogueAccE
    rw [if_pos ((and_two_pow_ne_zero 0 l).2 hb)]
    simp only [descBits, hb, if_true, List.append_nil, Nat.pow_zero] at hal hacc hw
    rw [hl1] at hp ⊢
    refine Tri.bind (pr.load aligned p 1 (fun h => (hal h).1) hp (Or.inr ⟨⟨0, rfl⟩, hw⟩) _) ?_
    intro v hv
    refine Tri.bind (pr.red' _ (u + 1) 1 hacc (by simp [hv]) (by omega)) ?_
    intro r hr
    exact red1E_tri pr _ _ _ _ hr
  | succ k ih =>
    have hpow : 2 ^ (k + 1) = 2 ^ k + 2 ^ k := by rw [Nat.pow_succ]; omega
    have hhalf : 2 ^ (k + 1) / 2 = 2 ^ k := by rw [Nat.pow_succ]; omega
    have hpk := Nat.two_pow_pos k
    unfold epilogueAccE
    simp only [mod_pow_zero_iff, hhalf]
    have hmod := mod_two_pow_succ' l (k + 1)
    have hdesc : descBits l (k + 1 + 1) = (if l.testBit (k + 1) then [2 ^ (k + 1)] else []) ++ descBits l (k + 1) := rfl
    have split : ∀ (p q : Nat) (a : List τ) (Q : τ → Prop) (f : List τ → Eff σ τ), a.length = 2 ^ (k + 1) →
        (∀ b, b.length = 2 ^ k → Tri I X U0 p (u + 2 ^ k) q u Q (f b)) →
        Tri I X U0 p (u + 2 ^ (k + 1)) q u Q (redE ops (a.take (2 ^ k)) (a.drop (2 ^ k)) >>= f) := by
      intro p q a Q f ha hf
      have h1 : (a.take (2 ^ k)).length = 2 ^ k := by rw [List.length_take]; omega
      have h2 : (a.drop (2 ^ k)).length = 2 ^ k := by rw [List.length_drop]; omega
      refine Tri.bind (Tri.from (by omega) (pr.red' _ (u + 2 ^ k) _ h1 h2 hpk)) ?_
      exact hf
    by_cases hb : l.testBit (k + 1) = true
    · rw [if_pos ((and_two_pow_ne_zero _ _).2 hb)]
      rw [hdesc] at hal
      simp only [hb, if_true, List.cons_append, List.nil_append] at hal hmod
      refine Tri.bind (pr.load aligned p (2 ^ (k + 1)) (fun h => (hal h).1) (by omega) (Or.inr ⟨⟨_, rfl⟩, hw⟩) _) ?_
      intro v hv
      refine Tri.bind (pr.red' _ _ (2 ^ (k + 1)) hacc (by simp [hv]) (by omega)) ?_
      intro a ha
      by_cases hz : l % 2 ^ (k + 1) = 0
      · rw [if_pos hz, hmod, hz, Nat.zero_add]
        refine Tri.bind (pr.hredT' _ _ _ ha (by omega) (by omega)) ?_
        intro x _
        exact red1E_tri pr _ _ _ _ rfl
      · rw [if_neg hz]
        refine split _ _ a _ _ ha ?_
        intro b hb
        have := ih (p + 2 ^ (k + 1)) hz (by omega) (by omega) (fun h => (hal h).2) b hb
        have e1 : p + 2 ^ (k + 1) + l % 2 ^ (k + 1) = p + l % 2 ^ (k + 1 + 1) := by omega
        rw [e1, Int.natCast_add] at this
        exact this
    · have hb' : l.testBit (k + 1) = false := by simpa using hb
      rw [if_neg (fun h => hb ((and_two_pow_ne_zero _ _).1 h))]
      simp only [hb', Bool.false_eq_true, if_false, Nat.add_zero] at hmod
      rw [hdesc] at hal
      simp only [hb', Bool.false_eq_true, if_false, List.nil_append] at hal
      rw [if_neg (by rw [← hmod]; exact hl)]
      refine split _ _ acc _ _ hacc ?_
      intro b hb
      rw [hmod]
      exact ih p (by rw [← hmod]; exact hl) (by rw [← hmod]; exact hp) (by omega) hal b hb

theorem epilogueE_tri (pr : Prims I X U0 t ops ld) (aligned : Bool) (l k p : Nat)
    (hl : l % 2 ^ (k + 1) ≠ 0) (hp : p + l % 2 ^ (k + 1) ≤ t.n) (hw : 2 ^ k < t.e.size)
    (hal : aligned = true → AlignedSeq t.e p (descBits l (k + 1))) (u : Nat) (acc1 : τ) :
    Tri I X U0 p u (p + l % 2 ^ (k + 1)) u (fun _ => True) (epilogueE t ops ld aligned l k acc1 (p : Int) (p : Int)) := by
  induction k generalizing p with
  | zero =>
    have hb : l.testBit 0 = true := by
      rw [Nat.testBit_zero]; simp at hl; simp; omega
    have hl1 : l % 2 ^ (0 + 1) = 1 := by simp at hl ⊢; omega
    unfold epilogueE
    rw [if_pos ((and_two_pow_ne_zero 0 l).2 hb)]
    simp only [descBits, hb, if_true, List.append_nil, Nat.pow_zero] at hal hw
    rw [hl1] at hp ⊢
    refine Tri.bind (pr.load aligned p 1 (fun h => (hal h).1) hp (Or.inr ⟨⟨0, rfl⟩, hw⟩) _) ?_
    intro v hv
    exact red1E_tri pr _ _ _ _ (by simp [hv])
  | succ k ih =>
    have hpow : 2 ^ (k + 1) = 2 ^ k + 2 ^ k := by rw [Nat.pow_succ]; omega
    have hhalf : 2 ^ (k + 1) / 2 = 2 ^ k := by rw [Nat.pow_succ]; omega
    have hpk := Nat.two_pow_pos k
    unfold epilogueE
    simp only [mod_pow_zero_iff, hhalf]
    have hmod := mod_two_pow_succ' l (k + 1)
    have hdesc : descBits l (k + 1 + 1) = (if l.testBit (k + 1) then [2 ^ (k + 1)] else []) ++ descBits l (k + 1) := rfl
    by_cases hb : l.testBit (k + 1) = true
    · rw [if_pos ((and_two_pow_ne_zero _ _).2 hb)]
      rw [hdesc] at hal
      simp only [hb, if_true, List.cons_append, List.nil_append] at hal hmod
      refine Tri.bind (pr.load aligned p (2 ^ (k + 1)) (fun h => (hal h).1) (by omega) (Or.inr ⟨⟨_, rfl⟩, hw⟩) _) ?_
      intro v hv
      have ha : (v.map ops.cvt).length = 2 ^ (k + 1) := by simp [hv]
      by_cases hz : l % 2 ^ (k + 1) = 0
      · rw [if_pos hz, hmod, hz, Nat.zero_add]
        refine Tri.bind (pr.hredT' _ _ _ ha (by omega) (by omega)) ?_
        intro x _
        exact red1E_tri pr _ _ _ _ rfl
      · rw [if_neg hz]
        generalize v.map ops.cvt = a at ha ⊢
        have h1 : (a.take (2 ^ k)).length = 2 ^ k := by rw [List.length_take]; omega
        have h2 : (a.drop (2 ^ k)).length = 2 ^ k := by rw [List.length_drop]; omega
        refine Tri.bind (Tri.from (by omega) (pr.red' _ (u + 2 ^ k) _ h1 h2 hpk)) ?_
        intro b hb'
        have := epilogueAccE_tri pr aligned l k (p + 2 ^ (k + 1)) hz (by omega) (by omega) (fun h => (hal h).2) u acc1 b hb'
        have e1 : p + 2 ^ (k + 1) + l % 2 ^ (k + 1) = p + l % 2 ^ (k + 1 + 1) := by omega
        rw [e1, Int.natCast_add] at this
        exact this
    · have hb' : l.testBit (k + 1) = false := by simpa using hb
      rw [if_neg (fun h => hb ((and_two_pow_ne_zero _ _).1 h))]
      simp only [hb', Bool.false_eq_true, if_false, Nat.add_zero] at hmod
      rw [hdesc] at hal
      simp only [hb', Bool.false_eq_true, if_false, List.nil_append] at hal
      rw [if_neg (by rw [← hmod]; exact hl), hmod]
      exact ih p (by rw [← hmod]; exact hl) (by rw [← hmod]; exact hp) (by omega) hal

theorem unrolledInitE_tri (pr : Prims I X U0 t ops ld) (aligned : Bool) (U p : Nat)
    (hal : aligned = true → AlignedSeq t.e p (List.replicate U t.e.size)) (h : p + t.e.size * U ≤ t.n) (u : Nat) :
    Tri I X U0 p u (p + t.e.size * U) (u + t.e.size * U) (fun accs => accs.length = U ∧ ∀ a ∈ accs, a.length = t.e.size)
      (unrolledInitE t ops ld aligned t.e.size U (p : Int) (p : Int)) := by
  induction U generalizing p u with
  | zero => exact Tri.ret _ ⟨rfl, by simp⟩
  | succ U ih =>
    rw [Nat.mul_succ] at h
    unfold unrolledInitE
    refine Tri.bind (pr.load aligned p t.e.size (fun h => (hal h).1) (by omega) (Or.inl rfl) _) ?_
    intro v hv
    have := ih (p + t.e.size) (fun h => (hal h).2) (by omega) (u + t.e.size)
    rw [Int.natCast_add] at this
    have e1 : ∀ p, p + t.e.size + t.e.size * U = p + t.e.size * (U + 1) := by intro p; rw [Nat.mul_succ]; omega
    rw [e1, e1] at this
    refine Tri.bind this ?_
    rintro vs ⟨h1, h2⟩
    refine Tri.ret _ ⟨by simp [h1], ?_⟩
    intro a ha
    rcases List.mem_cons.1 ha with rfl | ha
    · simp [hv]
    · exact h2 a ha

theorem unrolledBodyE_tri (pr : Prims I X U0 t ops ld) (hs : 0 < t.e.size) (aligned : Bool) (p : Nat) (accs : List (List τ))
    (hal : aligned = true → AlignedSeq t.e p (List.replicate accs.length t.e.size))
    (h : p + t.e.size * accs.length ≤ t.n) (ha : ∀ a ∈ accs, a.length = t.e.size) (u : Nat) :
    Tri I X U0 p u (p + t.e.size * accs.length) u (fun accs' => accs'.length = accs.length ∧ ∀ a ∈ accs', a.length = t.e.size)
      (unrolledBodyE t ops ld aligned t.e.size accs (p : Int) (p : Int)) := by
  induction accs generalizing p with
  | nil => exact Tri.ret _ ⟨rfl, by simp⟩
  | cons a accs ih =>
    simp only [List.length_cons, Nat.mul_succ] at h
    unfold unrolledBodyE
    refine Tri.bind (pr.load aligned p t.e.size (fun h => (hal h).1) (by omega) (Or.inl rfl) _) ?_
    intro v hv
    have hal' := ha a (by simp)
    refine Tri.bind (pr.red' _ _ _ hal' (by simp [hv]) hs) ?_
    intro a' ha'
    have := ih (p + t.e.size) (fun h => (hal h).2) (by omega) (fun b hb => ha b (by simp [hb]))
    rw [Int.natCast_add] at this
    have e1 : p + t.e.size + t.e.size * accs.length = p + t.e.size * (a :: accs).length := by
      rw [List.length_cons, Nat.mul_succ]; omega
    rw [e1] at this
    refine Tri.bind this ?_
    rintro vs ⟨h1, h2⟩
    refine Tri.ret _ ⟨by simp [h1], ?_⟩
    intro b hb
    rcases List.mem_cons.1 hb with rfl | hb
    · exact ha'
    · exact h2 b hb

theorem foldlM_tri {A : Type} (p : Nat) (Q : A → Prop) (V : Nat → Nat) (f : A → Nat → Eff σ A) (m k : Nat)
    (h : ∀ a i, i < k + m → Q a → Tri I X U0 p (V i) p (V (i + 1)) Q (f a i)) (a : A) (ha : Q a) :
    Tri I X U0 p (V k) p (V (k + m)) Q ((List.range' k m).foldlM f a) := by
  induction m generalizing k a with
  | zero => exact Tri.ret _ ha
  | succ m ih =>
    rw [List.range'_succ, List.foldlM_cons]
    have := fun a ha => ih (k + 1) (fun a i hi => h a i (by omega)) a ha
    rw [Nat.add_right_comm, Nat.add_assoc] at this
    exact Tri.bind (h a k (by omega) ha) this

/-- The number of accumulators not yet merged after `o` levels of the tree reduction. -/
def treeLive (U : Nat) : Nat → Nat
  | 0 => U
  | o + 1 => treeLive U o - treeLive U o / 2

theorem lt_treeLive (U o m : Nat) : m < treeLive U o ↔ m * 2 ^ o < U := by
  induction o generalizing m with
  | zero => simp [treeLive]
  | succ o ih =>
    have h := ih (2 * m)
    have e : 2 * m * 2 ^ o = m * 2 ^ (o + 1) := by rw [Nat.pow_succ, Nat.mul_comm 2 m, Nat.mul_assoc, Nat.mul_comm 2]
    rw [e] at h
    rw [← h]
    simp only [treeLive]
    omega

theorem treeLive_le (U o : Nat) : treeLive U o ≤ U := by
  induction o with
  | zero => exact Nat.le_refl _
  | succ o ih => simp only [treeLive]; omega

theorem treeReduceE_tri (pr : Prims I X U0 t ops ld) (hs : 0 < t.e.size) (p u U : Nat) (hU : 0 < U) (acc : List (List τ))
    (ha : acc.length = U ∧ ∀ a ∈ acc, a.length = t.e.size) :
    Tri I X U0 p (u + t.e.size * (U - 1)) p u (fun acc => acc.length = U ∧ ∀ a ∈ acc, a.length = t.e.size)
      (treeReduceE ops U acc) := by
  unfold treeReduceE
  have hend : treeLive U (stdBitWidth (U - 1)) = 1 := by
    have h1 := lt_treeLive U (stdBitWidth (U - 1)) 1
    have h0 := lt_treeLive U (stdBitWidth (U - 1)) 0
    have := le_two_pow_bitWidth U
    simp only [Nat.one_mul, Nat.zero_mul] at h1 h0
    omega
  have main := foldlM_tri (I := I) (X := X) (U0 := U0) p (fun acc : List (List τ) => acc.length = U ∧ ∀ a ∈ acc, a.length = t.e.size)
    (fun o => u + t.e.size * (treeLive U o - 1))
    (fun acc outer => (List.range (U / 2)).foldlM (treeInnerE ops U (2 ^ outer)) acc) (stdBitWidth (U - 1)) 0
    (by
      intro acc o _ ha
      have hc := treeLive_le U o
      have hpos : 0 < treeLive U o := (lt_treeLive U o 0).2 (by simpa using hU)
      have inner := foldlM_tri (I := I) (X := X) (U0 := U0) p
        (fun acc : List (List τ) => acc.length = U ∧ ∀ a ∈ acc, a.length = t.e.size)
        (fun i => u + t.e.size * (treeLive U o - 1 - min i (treeLive U o / 2))) (treeInnerE ops U (2 ^ o)) (U / 2) 0
        (by
          intro acc ii _ ha
          have hiff : ii * 2 * 2 ^ o + 2 ^ o < U ↔ ii < treeLive U o / 2 := by
            have := lt_treeLive U o (2 * ii + 1)
            rw [Nat.add_mul, Nat.one_mul, Nat.mul_comm 2 ii] at this
            rw [← this]; omega
          unfold treeInnerE
          simp only
          by_cases h : ii * 2 * 2 ^ o + 2 ^ o < U
          · rw [if_pos h]
            have hlt := hiff.1 h
            have h1 : ii * 2 * 2 ^ o < acc.length := by rw [ha.1]; exact Nat.lt_of_le_of_lt (Nat.le_add_right _ _) h
            have h2 : ii * 2 * 2 ^ o + 2 ^ o < acc.length := by rw [ha.1]; exact h
            rw [List.getElem?_eq_getElem h1, List.getElem?_eq_getElem h2]
            have hx := ha.2 _ (List.getElem_mem h1)
            have hy := ha.2 _ (List.getElem_mem h2)
            have e : treeLive U o - 1 - min ii (treeLive U o / 2) = (treeLive U o - 1 - min (ii + 1) (treeLive U o / 2)) + 1 := by omega
            rw [e, Nat.mul_succ, ← Nat.add_assoc]
            refine Tri.bind (pr.red' _ _ _ hx hy hs) ?_
            intro z hz
            refine Tri.ret _ ⟨by simp [ha.1], ?_⟩
            intro b hb
            rcases List.mem_or_eq_of_mem_set hb with hb | rfl
            · exact ha.2 b hb
            · exact hz
          · rw [if_neg h]
            have : ¬ ii < treeLive U o / 2 := fun h' => h (hiff.2 h')
            have e : min (ii + 1) (treeLive U o / 2) = min ii (treeLive U o / 2) := by omega
            rw [e]
            exact Tri.ret _ ha) acc ha
      rw [List.range_eq_range']
      have e0 : treeLive U o - 1 - min 0 (treeLive U o / 2) = treeLive U o - 1 := by omega
      have e1 : treeLive U o - 1 - min (0 + U / 2) (treeLive U o / 2) = treeLive U (o + 1) - 1 := by
        simp only [treeLive]; omega
      simp only [e0, e1] at inner
      exact inner) acc ha
  simp only [Nat.zero_add, hend, Nat.sub_self, Nat.mul_zero, Nat.add_zero] at main
  have hr : List.range (stdBitWidth (U - 1)) = List.range' 0 (stdBitWidth (U - 1)) := List.range_eq_range'
  rw [hr]
  exact main

theorem whileE_tri {S : Type} (cond : Int → Bool) (step : Nat) (body : Int → S → Eff σ S)
    (Inv : Nat → S → Prop) (fuel p q u : Nat) (st : S) (h0 : Inv 0 st)
    (hbody : ∀ i st, i < q → Inv i st →
      Tri I X U0 (p + i * step) u (p + (i + 1) * step) u (Inv (i + 1)) (body ((p + i * step : Nat) : Int) st))
    (hcond : ∀ i, i < q → cond ((p + i * step : Nat) : Int) = true)
    (hend : cond ((p + q * step : Nat) : Int) = false) (hf : q < fuel) :
    Tri I X U0 p u (p + q * step) u (fun r => r.1 = ((p + q * step : Nat) : Int) ∧ Inv q r.2) (whileE cond step body fuel (p : Int) st) := by
  induction q generalizing p fuel st Inv with
  | zero =>
    cases fuel with
    | zero => omega
    | succ fuel =>
      simp only [Nat.zero_mul, Nat.add_zero] at hend ⊢
      unfold whileE
      rw [hend, if_neg (by simp)]
      exact Tri.ret _ ⟨rfl, h0⟩
  | succ q ih =>
    cases fuel with
    | zero => omega
    | succ fuel =>
      have hc := hcond 0 (by omega)
      have hb := hbody 0 st (by omega) h0
      simp only [Nat.zero_mul, Nat.add_zero, Nat.zero_add, Nat.one_mul] at hc hb
      unfold whileE
      rw [hc, if_pos rfl]
      have key : ∀ i, p + step + i * step = p + (i + 1) * step := by
        intro i; rw [Nat.succ_mul]; omega
      refine Tri.bind hb ?_
      intro st1 hi
      have := ih (fun i => Inv (i + 1)) fuel (p + step) st1 hi
        (fun i s hlt hI => by rw [key, key]; exact hbody (i + 1) s (by omega) hI)
        (fun i hlt => by rw [key]; exact hcond (i + 1) (by omega)) (by rw [key]; exact hend) (by omega)
      rw [key, Int.natCast_add] at this
      exact this

/-- Aligned accesses after the prologue. -/
def AlignedFromE (t : TEnv) (p : Nat) : Prop :=
  useAligned t.e = true → t.e.al t.e.size ∣ t.e.size * t.e.sz ∧ t.e.al t.e.size ∣ t.e.addr + p * t.e.sz

theorem AlignedFromE.step {p : Nat} (h : AlignedFromE t p) (q : Nat) : AlignedFromE t (p + q * t.e.size) := by
  intro hu
  obtain ⟨h1, h2⟩ := h hu
  exact ⟨h1, dvd_shift h1 h2 q⟩

theorem AlignedFromE.seq (wf : t.e.WF) {p : Nat} (h : AlignedFromE t p) (q : Nat) :
    useAligned t.e = true → AlignedSeq t.e p (List.replicate q t.e.size) := by
  intro hu
  obtain ⟨h1, h2⟩ := h hu
  exact alignedSeq_replicate wf h1 _ h2 _

/-- The result of `initAcc`: `q` chunks have been used. -/
def AccAt (t : TEnv) (p : Nat) (r : AccSt τ) : Prop :=
  r.1 = (p : Int) ∧ r.2.1 = (p : Int) ∧ r.2.2.length = t.e.size

theorem firstLoadE_tri (pr : Prims I X U0 t ops ld) (wf : t.e.WF) {p : Nat} (hal : AlignedFromE t p) (h : p + t.e.size ≤ t.n) (u : Nat) :
    Tri I X U0 p u (p + 1 * t.e.size) (u + t.e.size) (AccAt t (p + 1 * t.e.size)) (firstLoadE t ops ld (p : Int) (p : Int)) := by
  unfold firstLoadE
  rw [Nat.one_mul]
  refine Tri.bind (pr.load (useAligned t.e) p t.e.size (fun hu => (hal.seq wf 1 hu).1) h (Or.inl rfl) _) ?_
  intro v hv
  exact Tri.ret _ ⟨by simp, by simp, by simp [hv]⟩

theorem initAccE_tri (pr : Prims I X U0 t ops ld) (wf : t.e.WF) (hpt : t.e.strictPtr = false) {p : Nat} (hal : AlignedFromE t p)
    (h : p + t.e.size ≤ t.n) (u : Nat) :
    ∃ q, p + q * t.e.size ≤ t.n ∧
      Tri I X U0 p u (p + q * t.e.size) (u + t.e.size) (AccAt t (p + q * t.e.size)) (initAccE t ops ld (p : Int) (p : Int)) := by
  have hsize := wf.size_pos
  unfold initAccE
  by_cases hu : t.e.pol.unrollBy > 1
  · simp only [hu, if_true]
    have hU : 1 < unroll t.e := by unfold unroll; omega
    have hstep : 0 < t.e.size * unroll t.e := Nat.mul_pos hsize (by omega)
    have hsp : subPtr t.e (t.n : Int) (t.e.size * t.e.pol.unrollBy.toNat) =
        .ok ((t.n : Int) - (t.e.size * unroll t.e : Nat)) := by
      unfold subPtr; rw [hpt]; rfl
    have hap : addPtr t.e t.n (p : Int) (t.e.size * t.e.pol.unrollBy.toNat) =
        .ok (((p + t.e.size * unroll t.e : Nat) : Int)) := by
      unfold addPtr; rw [hpt, Int.natCast_add]; rfl
    rw [hsp, hap]
    simp only [lift_ok, pure_bind']
    by_cases hn : ((p + t.e.size * unroll t.e : Nat) : Int) ≤ (t.n : Int) - (t.e.size * unroll t.e : Nat)
    · rw [if_pos hn]
      have hU' : t.e.pol.unrollBy.toNat = unroll t.e := rfl
      simp only [hU']
      have body : ∀ (i : Nat) (f2 : Int) (acc : List (List τ)),
          p + i * (t.e.size * unroll t.e) + t.e.size * unroll t.e ≤ t.n →
          f2 = ((p + i * (t.e.size * unroll t.e) : Nat) : Int) →
          (acc.length = unroll t.e ∧ ∀ a ∈ acc, a.length = t.e.size) →
          ∀ u, Tri I X U0 (p + i * (t.e.size * unroll t.e)) u (p + (i + 1) * (t.e.size * unroll t.e)) u
            (fun st => st.1 = ((p + (i + 1) * (t.e.size * unroll t.e) : Nat) : Int) ∧
              st.2.length = unroll t.e ∧ ∀ a ∈ st.2, a.length = t.e.size)
            (do
              let acc ← unrolledBodyE t ops ld (useAligned t.e) t.e.size acc
                ((p + i * (t.e.size * unroll t.e) : Nat) : Int) f2
              (pure (f2 + ((t.e.size * unroll t.e : Nat) : Int), acc) : Eff σ _)) := by
        intro i f2 acc hle hf2 hinv u
        subst hf2
        have hmul : i * (t.e.size * unroll t.e) = i * unroll t.e * t.e.size := by
          rw [Nat.mul_assoc, Nat.mul_comm (unroll t.e)]
        have := unrolledBodyE_tri pr hsize (useAligned t.e) (p + i * (t.e.size * unroll t.e)) acc
          (by rw [hmul]; exact (hal.step _).seq wf _) (by rw [hinv.1]; exact hle) hinv.2 u
        rw [hinv.1, Nat.add_assoc, ← Nat.succ_mul] at this
        refine Tri.bind this ?_
        intro acc' ha'
        refine Tri.ret _ ⟨?_, ha'⟩
        rw [Nat.succ_mul]; simp only; omega
      generalize hq : (t.n - p) / (t.e.size * unroll t.e) = q
      have hqle : q * (t.e.size * unroll t.e) ≤ t.n - p := by rw [← hq]; exact Nat.div_mul_le_self _ _
      have hqlt : t.n - p < q * (t.e.size * unroll t.e) + t.e.size * unroll t.e := by
        have := Nat.lt_mul_div_succ (t.n - p) hstep
        rw [hq, Nat.mul_succ, Nat.mul_comm _ q] at this; exact this
      have hq2 : 2 ≤ q := by
        rw [← hq]
        exact (Nat.le_div_iff_mul_le hstep).2 (by omega)
      obtain ⟨q', rfl⟩ : ∃ q', q = q' + 2 := ⟨q - 2, by omega⟩
      have hqn : q' < t.n + 1 := by
        have : (q' + 2) * 1 ≤ (q' + 2) * (t.e.size * unroll t.e) := Nat.mul_le_mul_left _ hstep
        omega
      have hm : (q' + 2) * unroll t.e * t.e.size = (q' + 2) * (t.e.size * unroll t.e) := by
        rw [Nat.mul_assoc, Nat.mul_comm (unroll t.e)]
      have key : ∀ i, p + 2 * (t.e.size * unroll t.e) + i * (t.e.size * unroll t.e) =
          p + (i + 2) * (t.e.size * unroll t.e) := by
        intro i; rw [Nat.add_mul]; omega
      have hmono : ∀ i, i < q' → (i + 2 + 1) * (t.e.size * unroll t.e) ≤ (q' + 2) * (t.e.size * unroll t.e) :=
        fun i hi => Nat.mul_le_mul_right _ (by omega)
      refine ⟨(q' + 2) * unroll t.e, by rw [hm]; omega, ?_⟩
      rw [hm]
      refine Tri.bind (unrolledInitE_tri pr (useAligned t.e) (unroll t.e) p (hal.seq wf _) (by omega) u) ?_
      intro acc hacc
      have b1 := body 1 ((p : Int) + ((t.e.size * unroll t.e : Nat) : Int)) acc (by omega) (by rw [Nat.one_mul]; omega) hacc
        (u + t.e.size * unroll t.e)
      rw [Nat.one_mul, Int.natCast_add] at b1
      refine Tri.bind b1 ?_
      rintro ⟨f2, acc1⟩ ⟨e1, e2⟩
      simp only at e1 e2
      subst e1
      have loop := whileE_tri (I := I) (X := X) (U0 := U0) (fun first1 => decide (first1 ≤ (t.n : Int) - (t.e.size * unroll t.e : Nat)))
        (t.e.size * unroll t.e)
        (fun (first1 : Int) (st : Int × List (List τ)) => (do
          let acc ← unrolledBodyE t ops ld (useAligned t.e) t.e.size st.2 first1 st.1
          pure (st.1 + ((t.e.size * unroll t.e : Nat) : Int), acc) : Eff σ _))
        (fun i st => st.1 = ((p + (i + 2) * (t.e.size * unroll t.e) : Nat) : Int) ∧
          st.2.length = unroll t.e ∧ ∀ a ∈ st.2, a.length = t.e.size)
        (t.n + 1) (p + 2 * (t.e.size * unroll t.e)) q' (u + t.e.size * unroll t.e)
        ((p : Int) + ((2 * (t.e.size * unroll t.e) : Nat) : Int), acc1)
        ⟨by simp, e2⟩
        (by
          rintro i ⟨f2, acc2⟩ hi ⟨e1, e2⟩
          simp only at e1 e2
          have := hmono i hi
          rw [Nat.succ_mul] at this
          rw [key, key]
          have := body (i + 2) f2 acc2 (by omega) e1 e2 (u + t.e.size * unroll t.e)
          have e3 : i + 1 + 2 = i + 2 + 1 := by omega
          rw [e3]
          exact this)
        (by
          intro i hi
          have := hmono i hi
          rw [Nat.succ_mul] at this
          rw [key]
          refine decide_eq_true ?_
          omega)
        (by
          rw [key]
          refine decide_eq_false ?_
          omega)
        hqn
      rw [key] at loop
      simp only [Nat.reduceAdd]
      have hcast : ((p + 2 * (t.e.size * unroll t.e) : Nat) : Int) =
          (p : Int) + ((t.e.size * unroll t.e : Nat) : Int) + ((t.e.size * unroll t.e : Nat) : Int) := by omega
      rw [hcast] at loop
      refine Tri.bind loop ?_
      rintro ⟨f1, f2, acc2⟩ ⟨e1, e3, e4⟩
      simp only at e1 e3 e4
      subst e1 e3
      have hun : u + t.e.size * unroll t.e = u + t.e.size + t.e.size * (unroll t.e - 1) := by
        obtain ⟨j, hj⟩ : ∃ j, unroll t.e = j + 1 := ⟨unroll t.e - 1, by omega⟩
        rw [hj, Nat.add_sub_cancel, Nat.mul_succ]; omega
      rw [hun]
      refine Tri.bind (treeReduceE_tri pr hsize _ (u + t.e.size) _ (by omega) acc2 e4) ?_
      rintro accs ⟨h1, h2⟩
      cases accs with
      | nil => simp at h1; omega
      | cons a as =>
        simp only [acc0, lift_ok, pure_bind']
        exact Tri.ret _ ⟨rfl, rfl, h2 a (by simp)⟩
    · rw [if_neg hn]
      exact ⟨1, by omega, firstLoadE_tri pr wf hal h u⟩
  · simp only [hu, if_false]
    exact ⟨1, by omega, firstLoadE_tri pr wf hal h u⟩

theorem finishE_tri (pr : Prims I X U0 t ops ld) (wf : t.e.WF) (l p : Nat)
    (hl : l < t.e.size) (hp : p + l ≤ t.n) (hal : AlignedFromE t p) (has : t.e.pol.assumeMatchingSize = true → l = 0)
    (u : Nat) (a : List τ) (acc1 : τ) (ha : a.length = t.e.size) :
    Tri I X U0 p (u + t.e.size) (p + l) u (fun _ => True) (finishE t ops ld l acc1 ((p : Int), (p : Int), a)) := by
  unfold finishE
  by_cases hs : t.e.size = 1
  · simp only
    rw [if_pos hs]
    obtain rfl : l = 0 := by omega
    rw [hs]
    exact red1E_tri pr _ _ _ _ (by rw [ha, hs])
  · simp only
    rw [if_neg hs]
    by_cases hl0 : l = 0
    · subst hl0
      simp only [decide_true, Bool.or_true, if_true]
      refine Tri.bind (pr.hredT' _ _ _ ha (by omega) (by omega)) ?_
      intro x _
      exact red1E_tri pr _ _ _ _ rfl
    · have has' : t.e.pol.assumeMatchingSize = false := by
        cases h : t.e.pol.assumeMatchingSize
        · rfl
        · exact absurd (has h) hl0
      have hs1 : 1 < t.e.size := by omega
      obtain ⟨K, hK, hK1, hK2⟩ := stdBitCeil_spec hs1
      have hlo : stdBitCeil t.e.size / 2 = 2 ^ K := by rw [hK, Nat.pow_succ]; omega
      simp only [has', hl0, decide_false, Bool.or_self, Bool.false_eq_true, if_false, hlo, Nat.log2_two_pow]
      have hmod : l % 2 ^ (K + 1) = l := Nat.mod_eq_of_lt (by omega)
      have hpK := Nat.two_pow_pos K
      have hal' : useAligned t.e = true → AlignedSeq t.e p (descBits l (K + 1)) := by
        intro h
        obtain ⟨hd, haa⟩ := hal h
        have key := alignedSeq_desc wf (l := l) (k := K + 1) (fun j hj hb => by
          have := Nat.ge_two_pow_of_testBit hb; omega) haa 0 (Nat.dvd_zero _)
        simpa using key
      have h1 : (a.take (2 ^ K)).length = 2 ^ K := by rw [List.length_take]; omega
      have epi : ∀ acc1 acc, acc.length = 2 ^ K →
          Tri I X U0 p (u + 2 ^ K) (p + l) u (fun _ => True) (epilogueAccE t ops ld (useAligned t.e) l K acc1 acc (p : Int) (p : Int)) := by
        intro acc1 acc hacc
        have := epilogueAccE_tri pr (useAligned t.e) l K p (by omega) (by omega) (by omega) hal' u acc1 acc hacc
        rw [hmod] at this
        exact this
      by_cases heq : 2 ^ K = t.e.size - 2 ^ K
      · rw [if_pos heq]
        have h2 : (a.drop (2 ^ K)).length = 2 ^ K := by rw [List.length_drop]; omega
        refine Tri.bind (Tri.from (by omega) (pr.red' _ (u + 2 ^ K) _ h1 h2 hpK)) ?_
        intro b hb
        exact epi _ _ hb
      · rw [if_neg heq]
        have h2 : (a.drop (2 ^ K)).length = t.e.size - 2 ^ K := by rw [List.length_drop]; omega
        refine Tri.bind (Tri.from (by omega) (pr.hredT' _ (u + 2 ^ K) _ h2 (by omega) (by omega))) ?_
        intro x _
        refine Tri.bind (red1E_tri pr _ _ _ _ rfl) ?_
        intro acc1 _
        exact epi _ _ h1

theorem restE_tri (pr : Prims I X U0 t ops ld) (wf : t.e.WF) (hpt : t.e.strictPtr = false) (p : Nat) (hp : p < t.n)
    (hal : AlignedFromE t p) (hpas : t.e.pol.assumeMatchingSize = true → p = 0)
    (has : t.e.pol.assumeMatchingSize = true → t.e.size ∣ t.n) (u : Nat) (acc1 : τ) :
    Tri I X U0 p u t.n u (fun _ => True) (restE t ops ld (p : Int) (t.n - p) acc1) := by
  have hsize := wf.size_pos
  unfold restE
  have hsl : subPtr t.e (t.n : Int) t.e.size = .ok ((t.n : Int) - (t.e.size : Nat)) := by
    unfold subPtr; rw [hpt]; rfl
  simp only [hsl, lift_ok, pure_bind']
  have hdm := Nat.div_add_mod (t.n - p) t.e.size
  rw [Nat.mul_comm] at hdm
  generalize hQ : (t.n - p) / t.e.size = Q at hdm ⊢
  generalize hL : (t.n - p) % t.e.size = l at hdm ⊢
  have hll : l < t.e.size := by rw [← hL]; exact Nat.mod_lt _ hsize
  have hlas : t.e.pol.assumeMatchingSize = true → l = 0 := by
    intro h; rw [← hL, hpas h]; exact Nat.mod_eq_zero_of_dvd (has h)
  by_cases hfit : p + t.e.size ≤ t.n
  · have hcond : (t.e.pol.assumeMatchingSize || decide ((p : Int) ≤ (t.n : Int) - (t.e.size : Nat))) = true := by
      rw [Bool.or_eq_true]; right; refine decide_eq_true ?_; omega
    rw [if_pos hcond]
    obtain ⟨q, hq1, hi⟩ := initAccE_tri (ops := ops) pr wf hpt hal hfit u
    refine Tri.bind hi ?_
    rintro ⟨f1, f2, a⟩ ⟨e1, e2, e3⟩
    simp only at e1 e2 e3
    subst e1 e2
    have hqQ : q ≤ Q := by
      rw [← hQ]; exact (Nat.le_div_iff_mul_le hsize).2 (by omega)
    obtain ⟨q2, rfl⟩ : ∃ q2, Q = q + q2 := ⟨Q - q, by omega⟩
    rw [Nat.add_mul] at hdm
    have hmono : ∀ i, i < q2 → (i + 1) * t.e.size ≤ q2 * t.e.size := fun i hi => Nat.mul_le_mul_right _ hi
    have hqn : q2 < t.n + 1 := by
      have : q2 * 1 ≤ q2 * t.e.size := Nat.mul_le_mul_left q2 hsize
      omega
    have loop := whileE_tri (I := I) (X := X) (U0 := U0)
      (fun first1 => if t.e.pol.assumeMatchingSize = true then decide (first1 ≠ (t.n : Int))
        else decide (first1 ≤ (t.n : Int) - (t.e.size : Nat)))
      t.e.size
      (fun first1 (st : Int × List τ) => (do
        let v ← ld (useAligned t.e) t.e.size first1 st.1
        let acc ← redE ops st.2 (v.map ops.cvt)
        pure (st.1 + (t.e.size : Int), acc) : Eff σ _))
      (fun i st => st.1 = ((p + q * t.e.size + i * t.e.size : Nat) : Int) ∧ st.2.length = t.e.size)
      (t.n + 1) (p + q * t.e.size) q2 (u + t.e.size) (((p + q * t.e.size : Nat) : Int), a)
      ⟨by simp, e3⟩
      (by
        rintro i ⟨f2, a2⟩ hi ⟨e1, e2⟩
        simp only at e1 e2
        subst e1
        have := hmono i hi
        rw [Nat.succ_mul] at this
        have hld := pr.load (useAligned t.e) (p + q * t.e.size + i * t.e.size) t.e.size
          (fun hu => (((hal.step q).step i).seq wf 1 hu).1) (by omega) (Or.inl rfl) (u + t.e.size)
        rw [Nat.add_assoc (p + q * t.e.size), ← Nat.succ_mul] at hld
        refine Tri.bind hld ?_
        intro v hv
        refine Tri.bind (pr.red' _ _ _ e2 (by simp [hv]) hsize) ?_
        intro b hb
        refine Tri.ret _ ⟨?_, hb⟩
        rw [Nat.succ_mul]; simp only; omega)
      (by
        intro i hi
        have := hmono i hi
        rw [Nat.succ_mul] at this
        by_cases has' : t.e.pol.assumeMatchingSize = true
        · simp only [has', if_true]; refine decide_eq_true ?_; omega
        · simp only [has', if_false, Bool.false_eq_true]; refine decide_eq_true ?_; omega)
      (by
        by_cases has' : t.e.pol.assumeMatchingSize = true
        · simp only [has', if_true]
          refine decide_eq_false ?_
          have h1 := hpas has'
          have h2 := hlas has'
          omega
        · simp only [has', if_false, Bool.false_eq_true]; refine decide_eq_false ?_; omega)
      hqn
    refine Tri.bind loop ?_
    rintro ⟨f1, f2, a2⟩ ⟨e1, e2, e4⟩
    simp only at e1 e2 e4
    subst e1 e2
    have := finishE_tri pr wf l (p + q * t.e.size + q2 * t.e.size) hll (by omega) ((hal.step q).step q2) hlas u a2 acc1 e4
    have e5 : p + q * t.e.size + q2 * t.e.size + l = t.n := by omega
    rw [e5] at this
    exact this
  · have hQ0 : Q = 0 := by
      rcases Nat.eq_zero_or_pos Q with h | h
      · exact h
      · have : 1 * t.e.size ≤ Q * t.e.size := Nat.mul_le_mul_right _ h
        omega
    subst hQ0
    have hl0 : l ≠ 0 := by omega
    have has' : t.e.pol.assumeMatchingSize = false := by
      cases h : t.e.pol.assumeMatchingSize
      · rfl
      · exact absurd (hlas h) hl0
    have hcond : ¬ (t.e.pol.assumeMatchingSize || decide ((p : Int) ≤ (t.n : Int) - (t.e.size : Nat))) = true := by
      rw [has', Bool.false_or, decide_eq_true_eq]; omega
    rw [if_neg hcond]
    have hs1 : 1 < t.e.size := by omega
    obtain ⟨K, hK, hK1, hK2⟩ := stdBitCeil_spec hs1
    have hlo : stdBitCeil t.e.size / 2 = 2 ^ K := by rw [hK, Nat.pow_succ]; omega
    rw [hlo, if_pos (Nat.two_pow_pos K), Nat.log2_two_pow]
    have hmod : l % 2 ^ (K + 1) = l := Nat.mod_eq_of_lt (by omega)
    have := epilogueE_tri pr (useAligned t.e) l K p (by omega) (by omega) (by omega)
      (by
        intro h
        obtain ⟨hd, haa⟩ := hal h
        have key := alignedSeq_desc wf (l := l) (k := K + 1) (fun j hj hb => by
          have := Nat.ge_two_pow_of_testBit hb; omega) haa 0 (Nat.dvd_zero _)
        simpa using key) u acc1
    have e5 : p + l % 2 ^ (K + 1) = t.n := by omega
    rw [e5] at this
    exact this

/-- Undefined behaviour inside the prologue is undefined behaviour of the prologue, and nothing else goes wrong. -/
theorem runPrologue_flat {S : Type} (e : Env) (n : Nat) (doPro : Nat → Nat → S → Outcome S) (first : Int) (st : S) :
    runPrologue e n doPro first st = (runPrologue e n (fun m t o => .ok (o >>= doPro m t)) first (.ok st) >>= fun x =>
      x.2.2 >>= fun st => .ok (x.1, x.2.1, st)) := by
  unfold runPrologue
  repeat' split
  all_goals first | rfl | (cases doPro (maxMisalignment e) (toProcess e) st <;> rfl)

theorem transformReduceE_tri (pr : Prims I X U0 t ops ld) (wf : t.e.WF) (hce : t.e.constEval = false) (hpt : t.e.strictPtr = false)
    (hf : t.e.Fits t.n) (hp : t.n = 0 ∨ proCount t.e t.n < t.n) (has : t.e.pol.assumeMatchingSize = true → t.e.size ∣ t.n)
    (u : Nat) (init : τ) : Tri I X U0 0 u t.n u (fun _ => True) (transformReduceL t ops ld init) := by
  intro s hs
  unfold transformReduceL
  by_cases hn0 : t.n = 0
  · left; exact ⟨s, init, by simp [hn0], by rw [hn0]; exact hs, trivial⟩
  have hp : proCount t.e t.n < t.n := by omega
  have hassume : (t.e.pol.assumeMatchingSize && t.n % t.e.size != 0) = false := by
    cases ha : t.e.pol.assumeMatchingSize
    · rfl
    · simp [Nat.mod_eq_zero_of_dvd (has ha)]
  simp only [hn0, if_false, hassume, Bool.false_eq_true, hce]
  have hpal : AlignedFromE t (proCount t.e t.n) := proCount_aligned wf t.n
  have hpas : t.e.pol.assumeMatchingSize = true → proCount t.e t.n = 0 := proCount_assume wf t.n
  rw [runPrologue_flat]
  obtain ⟨st, ph1, ph2⟩ := runPrologue_ex wf hf (Nat.le_of_lt hp) (fun m tp o => .ok (o >>= proE t ops ld m tp)) (.ok (s, some init))
    (fun o => (∃ st, o = .ok st ∧ ((∃ a, st.2 = some a ∧ I (proCount t.e t.n) u st.1) ∨ (st.2 = none ∧ X st.1))) ∨ ∃ r, o = .ub r ∧ U0 r)
    (by
      intro h0 K hK ht ha
      have hsq := alignedSeq_asc wf ha 0 K (by simpa using hK.le_size) (by simpa using ht)
      have hb1 := bitsAsc_eq (proCount t.e t.n) (K + 1) (by rw [Nat.pow_succ]; omega)
      rw [bitsAsc_eq _ _ ht] at hsq
      have := prologueRecE_tri pr K (proCount t.e t.n) 0 (K + 1) ht (hK.le_size) (by omega) (by omega)
        (by simpa [Nat.mod_one, hb1] using hsq) (Nat.le_of_lt hp) u init s (by simpa [Nat.mod_one] using hs)
      refine ⟨_, rfl, ?_⟩
      rcases this with ⟨s', a, h1, h2, _⟩ | ⟨s', h1, h2⟩ | ⟨r, h1, h2⟩
      · exact Or.inl ⟨_, h1, Or.inl ⟨a, rfl, h2⟩⟩
      · exact Or.inl ⟨_, h1, Or.inr ⟨rfl, h2⟩⟩
      · exact Or.inr ⟨r, h1, h2⟩)
    (by intro h0; rw [h0]; exact Or.inl ⟨_, rfl, Or.inl ⟨init, rfl, hs⟩⟩)
  rw [ph1]
  simp only [Outcome.bind_ok]
  rcases ph2 with ⟨⟨s', o⟩, rfl, ⟨a, h1, h2⟩ | ⟨h1, h2⟩⟩ | ⟨r, rfl, h2⟩
  · simp only at h1 h2
    subst h1
    exact restE_tri pr wf hpt _ hp hpal hpas has u a s' h2
  · simp only at h1 h2
    subst h1
    exact Or.inr (Or.inl ⟨s', rfl, h2⟩)
  · exact Or.inr (Or.inr ⟨r, rfl, h2⟩)

theorem transformReduceE_const_tri (pr : Prims I X U0 t ops ld) (hsz : 0 < t.e.size) (hce : t.e.constEval = true)
    (has : t.e.pol.assumeMatchingSize = true → t.e.size ∣ t.n) (u : Nat) (init : τ) :
    Tri I X U0 0 u t.n u (fun _ => True) (transformReduceL t ops ld init) := by
  intro s hs
  unfold transformReduceL
  by_cases hn0 : t.n = 0
  · left; exact ⟨s, init, by simp [hn0], by rw [hn0]; exact hs, trivial⟩
  have hassume : (t.e.pol.assumeMatchingSize && t.n % t.e.size != 0) = false := by
    cases ha : t.e.pol.assumeMatchingSize
    · rfl
    · simp [Nat.mod_eq_zero_of_dvd (has ha)]
  simp only [hn0, if_false, hassume, Bool.false_eq_true, hce, if_true]
  have loop := whileE_tri (I := I) (X := X) (U0 := U0) (fun first1 => decide (first1 < (t.n : Int))) 1
    (fun first1 acc1 => (do
        let r ← ld false 1 first1 first1
        red1E ops acc1 (r.map ops.cvt) : Eff σ τ))
    (fun _ _ => True) (t.n + 1) 0 t.n u init trivial
    (by
      intro i acc hi _
      simp only [Nat.zero_add, Nat.mul_one]
      refine Tri.bind (pr.load false i 1 (by simp) (by omega) ?_ u) ?_
      · by_cases h1 : t.e.size = 1
        · exact Or.inl h1.symm
        · exact Or.inr ⟨⟨0, rfl⟩, by omega⟩
      · intro v hv
        exact red1E_tri pr _ _ _ _ (by simp [hv]))
    (by intro i hi; refine decide_eq_true ?_; omega)
    (by refine decide_eq_false ?_; omega) (by omega)
  simp only [Int.natCast_zero, Nat.zero_add, Nat.mul_one] at loop
  exact Tri.bind loop (fun r _ => Tri.ret r.2 trivial) s hs

/-! ### The instrumented operations -/

/-- Inputs inside the arena. -/
structure InsOk (t : TEnv) (mem : List α) : Prop where
  ins_ne : t.ins ≠ []
  ins_le : ∀ a ∈ t.ins, a + t.n ≤ mem.length

/-- After the elements before `p` have been passed to `transform_op`; `u` of them are still to be combined. -/
def LogAt (t : TEnv) (mem : List α) (p u : Nat) (s : σ × List (REvent α β τ)) : Prop :=
  (∀ ev ∈ s.2, ev.threw = false) ∧ (∀ ev ∈ s.2, ShapeOk t.e.size t.ins.length ev) ∧ combined s.2 + u = p ∧
    ∀ i (_ : i < t.ins.length), transformedArgs i s.2 = slice mem t.ins[i] p

/-- After an exception. -/
def LogEnd (t : TEnv) (mem : List α) (s : σ × List (REvent α β τ)) : Prop :=
  ∃ log last, s.2 = log ++ [last] ∧ (∀ ev ∈ log, ev.threw = false) ∧ last.threw = true ∧
    (∀ ev ∈ s.2, ShapeOk t.e.size t.ins.length ev) ∧ combined s.2 ≤ t.n ∧
    ∀ i (_ : i < t.ins.length), ∃ q, q ≤ t.n ∧ transformedArgs i s.2 = slice mem t.ins[i] q

theorem transformedArgs_append (i : Nat) (a b : List (REvent α β τ)) :
    transformedArgs i (a ++ b) = transformedArgs i a ++ transformedArgs i b := by
  induction a with
  | nil => rfl
  | cons x a ih => cases x <;> simp [transformedArgs, ih]

theorem combined_append (a b : List (REvent α β τ)) : combined (a ++ b) = combined a + combined b := by
  induction a with
  | nil => simp [combined]
  | cons x a ih => cases x <;> simp only [List.cons_append, combined, ih] <;> omega

theorem slice_grow (mem : List α) (a p w : Nat) : slice mem a p ++ slice mem (a + p) w = slice mem a (p + w) := by
  unfold slice
  rw [List.take_add, List.drop_drop]

/-- An event that is no call of `transform_op`. -/
theorem logged_plain {A : Type} {t : TEnv} {mem : List α} {p u v : Nat} {Q : A → Prop} (hpn : p ≤ t.n)
    (f : σ → σ × Option A) (ev : Option A → REvent α β τ)
    (h1 : ∀ r, ShapeOk t.e.size t.ins.length (ev r)) (h2 : ∀ r, (ev r).threw = r.isNone)
    (h3 : ∀ i r, transformedArgs i [ev r] = []) (h4 : ∀ r, combined [ev r] + u = v) (hQ : ∀ s r, (f s).2 = some r → Q r) :
    Tri (LogAt t mem) (LogEnd t mem) U0 p v p u Q
      (invoke fun s : σ × List (REvent α β τ) => (((f s.1).1, s.2 ++ [ev (f s.1).2]), (f s.1).2)) := by
  rintro ⟨s, log⟩ ⟨g1, g2, g4, g3⟩
  simp only at g1 g2 g3 g4
  have hc : ∀ r, combined (log ++ [ev r]) + u = p := by
    intro r
    have := h4 r
    rw [combined_append]; omega
  have hsh : ∀ e ∈ log ++ [ev (f s).2], ShapeOk t.e.size t.ins.length e := by
    intro e he
    rcases List.mem_append.1 he with he | he
    · exact g2 e he
    · rw [List.mem_singleton.1 he]; exact h1 _
  have hargs : ∀ i (_ : i < t.ins.length), transformedArgs i (log ++ [ev (f s).2]) = slice mem t.ins[i] p := by
    intro i hi
    rw [transformedArgs_append, h3, List.append_nil, g3 i hi]
  cases hr : (f s).2 with
  | none =>
    right; left
    rw [hr] at hsh hargs
    refine ⟨((f s).1, log ++ [ev none]), by simp [invoke, hr], log, ev none, rfl, g1, by rw [h2]; rfl, hsh,
      by have := hc none; simp only; omega, ?_⟩
    exact fun i hi => ⟨p, hpn, hargs i hi⟩
  | some a =>
    left
    rw [hr] at hsh hargs
    refine ⟨((f s).1, log ++ [ev (some a)]), a, by simp [invoke, hr], ⟨?_, hsh, hc _, hargs⟩, hQ s a hr⟩
    intro e he
    rcases List.mem_append.1 he with he | he
    · exact g1 e he
    · rw [List.mem_singleton.1 he, h2]; rfl

/-- A load in range at a suitably aligned address invokes `transform_op` on the elements. -/
theorem loadInvokeE_eq {t : TEnv} {mem : List α} (ok : InsOk t mem) (ops : ROps σ α β τ) {aligned : Bool} {p w : Nat}
    (hal : aligned = true → alignedAt t.e (p : Int) w = true) (hle : p + w ≤ t.n) :
    loadInvokeE t ops mem aligned w (p : Int) (p : Int) = invoke fun s => ops.trans s (t.ins.map fun a => slice mem (a + p) w) := by
  have rk : RangesOk (⟨t.e, t.ins, 0, t.n⟩ : TEnv) mem :=
    ⟨ok.ins_ne, ok.ins_le, by
      cases h : t.ins with
      | nil => exact absurd h ok.ins_ne
      | cons a _ =>
        have := ok.ins_le a (by simp [h])
        simp only; omega, fun a _ => Or.inl (Nat.zero_le a)⟩
  unfold loadInvokeE
  cases hi : t.ins with
  | nil => exact absurd hi ok.ins_ne
  | cons b bs =>
    have h1 := Transform.loadIn_eq rk [] p w (by simp) hle b (by simp [hi])
    have h2 := Transform.loadIns_eq rk [] p w (by simp) hle bs (fun a ha => by simp [hi, ha])
    rw [writeAt_nil] at h1 h2
    have h1' : loadIn t mem w b (p : Int) = .ok (slice mem (b + p) w) := h1
    have h2' : loadIns t mem w (p : Int) bs = .ok (bs.map fun a => slice mem (a + p) w) := by
      rw [← h2]; clear h1 h2 rk hle hal hi h1'
      induction bs with
      | nil => rfl
      | cons c cs ih => simp only [loadIns, ih]; rfl
    have h3 : (aligned && !alignedAt t.e (p : Int) w) = false := by
      cases aligned with
      | false => rfl
      | true => simp [hal rfl]
    simp only [h3, Bool.false_eq_true, if_false, h1', h2', lift_ok, pure_bind', List.map_cons]

theorem logged_prims {t : TEnv} {mem : List α} (ok : InsOk t mem) (ops : ROps σ α β τ) :
    Prims (fun p u s => p ≤ t.n ∧ LogAt t mem p u s) (LogEnd t mem) U0 t (loggedR ops) (loadInvokeE t (loggedR ops) mem) := by
  have weak : ∀ {A : Type} {p v u : Nat} {Q : A → Prop} {m : Eff (σ × List (REvent α β τ)) A},
      (p ≤ t.n → Tri (LogAt t mem) (LogEnd t mem) U0 p v p u Q m) →
      Tri (fun p u s => p ≤ t.n ∧ LogAt t mem p u s) (LogEnd t mem) U0 p v p u Q m := by
    intro A p v u Q m h s hs
    rcases h hs.1 s hs.2 with ⟨s', a, h1, h2, h3⟩ | h'
    · exact Or.inl ⟨s', a, h1, ⟨hs.1, h2⟩, h3⟩
    · exact Or.inr h'
  refine ⟨?_, ?_, ?_, ?_⟩
  · intro aligned p w hal hle hw u
    rw [loadInvokeE_eq ok (loggedR ops) hal hle]
    rintro ⟨s, log⟩ ⟨hpn, g1, g2, g4, g3⟩
    simp only at g1 g2 g3 g4
    have hlen : ∀ a ∈ t.ins.map (fun a => slice mem (a + p) w), a.length = w := by
      intro a ha
      obtain ⟨b, hb, rfl⟩ := List.mem_map.1 ha
      have := ok.ins_le b hb
      simp only [slice, List.length_take, List.length_drop]; omega
    have hne : t.ins.map (fun a => slice mem (a + p) w) ≠ [] := by simpa using ok.ins_ne
    generalize hA : t.ins.map (fun a => slice mem (a + p) w) = args at hlen hne
    have hsh : ∀ r : Option (List β), ∀ e ∈ log ++ [REvent.trans args r], ShapeOk t.e.size t.ins.length e := by
      intro r e he
      rcases List.mem_append.1 he with he | he
      · exact g2 e he
      · rw [List.mem_singleton.1 he]
        exact ⟨by rw [← hA]; simp, w, hw, hlen⟩
    have hc : ∀ r : Option (List β), combined (log ++ [REvent.trans args r]) = combined log := by
      intro r; rw [combined_append]; rfl
    have hargs : ∀ (r : Option (List β)) i (_ : i < t.ins.length),
        transformedArgs i (log ++ [REvent.trans args r]) = slice mem t.ins[i] (p + w) := by
      intro r i hi
      rw [transformedArgs_append, g3 i hi]
      simp only [transformedArgs, List.append_nil]
      rw [← slice_grow, ← hA]
      congr 1
      simp [hi]
    cases hr : (ops.trans s args).2 with
    | none =>
      right; left
      refine ⟨((ops.trans s args).1, log ++ [.trans args none]), by simp [invoke, loggedR, hr], log, .trans args none, rfl, g1,
        rfl, hsh none, by have := hc none; simp only; omega, ?_⟩
      exact fun i hi => ⟨p + w, hle, hargs none i hi⟩
    | some v =>
      left
      refine ⟨((ops.trans s args).1, log ++ [.trans args (some v)]), v, by simp [invoke, loggedR, hr],
        ⟨hle, ?_, hsh _, by have := hc (some v); simp only; omega, hargs _⟩, ops.transShape s w args v hne hlen hr⟩
      intro e he
      rcases List.mem_append.1 he with he | he
      · exact g1 e he
      · rw [List.mem_singleton.1 he]; rfl
  · intro p u x y hxy hx
    exact weak fun hpn => logged_plain hpn (fun s => ops.red s x y) (fun r => .red x y r) (fun _ => ⟨hxy, hx⟩) (fun _ => rfl)
      (fun _ _ => rfl) (fun _ => by simp [combined]; omega) (fun s r h => ops.redShape s x y r hxy h)
  · intro p u v hv _
    have hlen := List.length_pos_of_ne_nil hv
    exact weak fun hpn => logged_plain hpn (fun s => ops.hredT s v) (fun r => .hredT v r) (fun _ => hv) (fun _ => rfl)
      (fun _ _ => rfl) (fun _ => by simp [combined]; omega) (fun _ _ _ => trivial)
  · intro p u v hv _
    have hlen := List.length_pos_of_ne_nil hv
    exact weak fun hpn => logged_plain hpn (fun s => ops.hredB s v) (fun r => .hredB v r) (fun _ => hv) (fun _ => rfl)
      (fun _ _ => rfl) (fun _ => by simp [combined]; omega) (fun _ _ _ => trivial)

end TransformReduce
end Vir
