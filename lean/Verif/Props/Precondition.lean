import Verif.Spec.Precondition

/-!
# C79: checked preconditions

For every configuration, compiler, call and argument.
-/

namespace Vir.Precondition

open Vir.Spec

variable {α : Type}

/-! ### A precondition that holds -/

/-- A precondition that holds has no effect at all, whatever the configuration. -/
theorem check_holds (c : Cfg) (call : Call) (fmt : List Char) (args : List Arg) (rest : Run α) :
    check c call true fmt args rest = rest := by
  simp [check]

/-- Conversely every level from 0 on stops the program before the code after the check, whatever the compiler. -/
theorem check_stops (c : Cfg) (hl : 0 ≤ c.level) (call : Call) (fmt : List Char) (args : List Arg) (rest rest' : Run α) :
    check c call false fmt args rest = check c call false fmt args rest' ∧
      ∀ x, (check c call false fmt args rest).fate ≠ .returns x := by
  have : ¬ c.level < 0 := by omega
  constructor
  · simp [check, this]
  · intro x
    simp only [check, this, if_false, invokeUb, trap]
    repeat' split
    all_goals simp_all
    all_goals (try split)
    all_goals simp_all

/-- A negative level switches the check off. -/
theorem check_off (c : Cfg) (hl : c.level < 0) (call : Call) (b : Bool) (fmt : List Char) (args : List Arg) (rest : Run α) :
    check c call b fmt args rest = rest := by
  simp [check, hl]

/-- In a constant evaluation a failed precondition is an error at every level from 0 on, not only at the levels that say "error". -/
theorem check_constexpr (c : Cfg) (hl : 0 ≤ c.level) (k : Bool) (fmt : List Char) (args : List Arg) (rest : Run α) :
    check c ⟨true, k⟩ false fmt args rest = ⟨false, .rejected⟩ := by
  have : ¬ c.level < 0 := by omega
  simp [check, this]

/-! ### The table of the README -/

/-- **Run time**: if the compiler cannot tell that the precondition fails, the table of the README holds at every level, provided the
message is a valid format for its arguments. -/
theorem check_run_time_partial (c : Cfg) (hg : GnuLike c) {err : Bool} {act : RunTime} (ht : (c.level, err, act) ∈ readmeTable)
    (fmt : List Char) (args : List Arg) {msg : List Char} (hm : printf .text fmt args = some msg) (rest : Run α) :
    (check c ⟨false, false⟩ false fmt args rest).warned = false ∧
      IsRunTime msg act (check c ⟨false, false⟩ false fmt args rest).fate := by
  obtain ⟨l, gnu, gnuc, clang⟩ := c
  obtain ⟨hg1, hg2⟩ := hg
  simp only at hg1 hg2 ht
  subst hg1
  simp only [readmeTable, List.mem_cons, Prod.mk.injEq, List.not_mem_nil, or_false] at ht
  rcases ht with ⟨rfl, -, rfl⟩ | ⟨rfl, -, rfl⟩ | ⟨rfl, -, rfl⟩ | ⟨rfl, -, rfl⟩ | ⟨rfl, -, rfl⟩ | ⟨rfl, -, rfl⟩ <;>
    simp [check, invokeUb, IsRunTime, hm]

/-- **Compile time**: if the compiler can tell, the program is rejected at the levels that say "error" and compiled with a warning at the
levels that say "warning". A program compiled in spite of the warning traps, at every level. -/
theorem check_compile_time (c : Cfg) (hg : GnuLike c) {err : Bool} {act : RunTime} (ht : (c.level, err, act) ∈ readmeTable)
    (fmt : List Char) (args : List Arg) (rest : Run α) :
    check c ⟨false, true⟩ false fmt args rest = if err then ⟨false, .rejected⟩ else ⟨true, .traps⟩ := by
  obtain ⟨l, gnu, gnuc, clang⟩ := c
  obtain ⟨hg1, hg2⟩ := hg
  simp only at hg1 hg2 ht
  subst hg1
  have hx : (clang || decide (10 ≤ gnuc)) = true := by simpa using hg2
  simp only [readmeTable, List.mem_cons, Prod.mk.injEq, List.not_mem_nil, or_false] at ht
  rcases ht with ⟨rfl, rfl, -⟩ | ⟨rfl, rfl, -⟩ | ⟨rfl, rfl, -⟩ | ⟨rfl, rfl, -⟩ | ⟨rfl, rfl, -⟩ | ⟨rfl, rfl, -⟩ <;>
    simp [check, trap, hx]

/-- So at levels 0 and 4 the column "at run-time" is not what a program compiled with the warning does: it neither has undefined behaviour
nor prints anything. -/
theorem check_warned_not_documented (c : Cfg) (hg : GnuLike c) (hl : c.level = 0 ∨ c.level = 4) (fmt : List Char) (args : List Arg)
    (msg : List Char) (rest : Run α) :
    ∃ act, (c.level, false, act) ∈ readmeTable ∧ ¬ IsRunTime msg act (check c ⟨false, true⟩ false fmt args rest).fate := by
  rcases hl with hl | hl
  · refine ⟨.invokeUb, by simp [readmeTable, hl], ?_⟩
    rw [check_compile_time c hg (err := false) (act := .invokeUb) (by simp [readmeTable, hl])]
    simp [IsRunTime]
  · refine ⟨.printAndAbort, by simp [readmeTable, hl], ?_⟩
    rw [check_compile_time c hg (err := false) (act := .printAndAbort) (by simp [readmeTable, hl])]
    simp [IsRunTime]

/-- A compiler without `__GNUC__` and other than Clang gives no diagnostics at compile time, and prints and aborts where the table says
"trap". -/
theorem check_other_compilers (c : Cfg) (hg : c.gnu = false) (hc : c.clang = false) (hl : 0 ≤ c.level) (k : Bool) (fmt : List Char)
    (args : List Arg) {msg : List Char} (hm : printf .text fmt args = some msg) (rest : Run α) :
    check c ⟨false, k⟩ false fmt args rest = ⟨false, if c.level < 2 then .undefined else .aborts msg⟩ := by
  have : ¬ c.level < 0 := by omega
  simp [check, this, hg, hc, invokeUb, hm]

/-- Clang without `__GNUC__` gives the diagnostics of the table for a precondition known to fail. A program compiled in spite of the warning
aborts, at every level, and prints nothing. -/
theorem check_clang_without_gnu (c : Cfg) (hg : c.gnu = false) (hc : c.clang = true) (hl : 0 ≤ c.level) (fmt : List Char) (args : List Arg)
    (rest : Run α) :
    check c ⟨false, true⟩ false fmt args rest = if c.level % 2 = 1 then ⟨false, .rejected⟩ else ⟨true, .aborts []⟩ := by
  have : ¬ c.level < 0 := by omega
  simp [check, this, hg, hc, trap]

/-! ### The messages -/

/-- Ordinary text in a format is copied. -/
theorem printf_text {s : List Char} (h : '%' ∉ s) (cs : List Char) (as : List Arg) :
    printf .text (s ++ cs) as = (printf .text cs as).map (s ++ ·) := by
  induction s with
  | nil => simp
  | cons a s ih =>
    simp only [List.mem_cons, not_or] at h
    rw [List.cons_append, printf, if_neg (fun h' => h.1 h'.symm), ih h.2]
    cases printf .text cs as <;> simp

/-- The message of the subscript operators names the subscript and the last valid one. -/
theorem subscript_message {loc : List Char} (hloc : '%' ∉ loc) (fn : List Char) (i last : Nat) :
    printf .text (format loc subscriptMsg "i < size()".toList) [.str fn, .size i, .size last] =
      some (subscriptText loc fn i last) := by
  unfold format subscriptMsg subscriptText
  simp only [List.append_assoc]
  rw [printf_text hloc]
  simp [printf]

/-- The message of `find_first_set`. -/
theorem findFirstSet_message {loc : List Char} (hloc : '%' ∉ loc) (fn : List Char) :
    printf .text (format loc "find_first_set(empty mask) is UB".toList "any_of(k)".toList) [.str fn] =
      some (loc ++ "precondition failure in '".toList ++ fn ++
        "': find_first_set(empty mask) is UB ('any_of(k)' does not hold)\n".toList) := by
  unfold format
  simp only [List.append_assoc]
  rw [printf_text hloc]
  simp [printf]

set_option maxRecDepth 8000 in
/-- The message of the algorithms is not a valid format: the text of the condition, `distance % size == 0`, is part of the format and
contains the conversion `% s`, for which there is no argument. -/
theorem assume_message_undefined {loc : List Char} (hloc : '%' ∉ loc) (fn : List Char) (n size : Nat) :
    printf .text (format loc assumeMsg "distance % size == 0".toList) [.str fn, .size n, .int size] = none := by
  unfold format assumeMsg
  simp only [List.append_assoc]
  rw [printf_text hloc]
  simp [printf]

set_option maxRecDepth 8000 in
/-- Only the text of the condition is at fault: with any condition that contains no `%` the message of the algorithms would name the length
and the width. -/
theorem assume_message_otherwise {loc expr : List Char} (hloc : '%' ∉ loc) (hexpr : '%' ∉ expr) (fn : List Char) (n size : Nat) :
    printf .text (format loc assumeMsg expr) [.str fn, .size n, .int size] =
      some (loc ++ "precondition failure in '".toList ++ fn ++
        "': The explicit assumption, that the range size (".toList ++ (toString n).toList ++
        ") is a multiple of the SIMD width (".toList ++ (toString (size : Int)).toList ++ "), does not hold. ('".toList ++ expr ++
        "' does not hold)\n".toList) := by
  unfold format assumeMsg
  simp only [List.append_assoc]
  rw [printf_text hloc]
  have := printf_text hexpr "' does not hold)\n".toList []
  simp [printf] at this
  simp [printf, this]

/-! ### Functions with a precondition -/

/-- A subscript in range returns that element, without diagnostics, in every configuration. -/
theorem subscript_in_range (c : Cfg) (call : Call) (loc fn : List Char) (v : List α) (i : Nat) (h : i < v.length) :
    subscript c call loc fn v i = ⟨false, .returns v[i]⟩ := by
  simp [subscript, h, check_holds]

/-- A subscript out of range never returns, in any configuration, and at the levels 2 to 5 the program has no undefined behaviour with
any compiler. -/
theorem subscript_out_of_range (c : Cfg) (call : Call) {loc : List Char} (hloc : '%' ∉ loc) (fn : List Char) (v : List α) (i : Nat)
    (h : v.length ≤ i) :
    (∀ x, (subscript c call loc fn v i).fate ≠ .returns x) ∧
      (2 ≤ c.level → (subscript c call loc fn v i).fate ≠ .undefined) := by
  have hd : decide (i < v.length) = false := by simpa using h
  refine ⟨fun x => ?_, fun hl => ?_⟩
  · by_cases hl : 0 ≤ c.level
    · simp only [subscript, hd]
      exact (check_stops c hl call _ _ _ ⟨false, .rejected⟩).2 x
    · have hl : c.level < 0 := by omega
      simp only [subscript, check_off c hl, List.getElem?_eq_none h]
      split <;> simp
  · have h0 : ¬ c.level < 0 := by omega
    have h2 : ¬ c.level < 2 := by omega
    simp only [subscript, hd, check, h0, if_false, invokeUb, h2, subscript_message hloc, trap]
    repeat' split
    all_goals simp_all
    all_goals (try split)
    all_goals simp_all

/-- With the default level a subscript out of range is undefined nowhere; with GCC or Clang it is what the rest of the model says: `trap`. -/
theorem subscript_default (c : Cfg) (hg : GnuLike c) (hl : c.level = 3) (loc fn : List Char) (v : List α) (i : Nat) :
    (subscript c ⟨false, false⟩ loc fn v i).fate =
      match Simd.at' v i with
      | .ok x => .returns x
      | .ub _ => .undefined
      | .trap => .traps := by
  by_cases h : i < v.length
  · rw [subscript_in_range _ _ _ _ _ _ h]; simp [Simd.at', h]
  · have h' : v.length ≤ i := by omega
    simp [subscript, h, check, hl, invokeUb, hg.1, Simd.at']

/-- With the checks off, the scalar simd returns its element for every subscript, while any other simd has undefined behaviour. -/
theorem subscript_off (c : Cfg) (hl : c.level < 0) (loc fn : List Char) (i : Nat) (x : α) (v : List α) (h : v.length ≤ i) :
    (subscriptScalar c ⟨false, false⟩ loc fn x i).fate = .returns x ∧ (subscript c ⟨false, false⟩ loc fn v i).fate = .undefined := by
  simp [subscriptScalar, subscript, check_off c hl, List.getElem?_eq_none h]

/-- `find_first_set` of a mask with a true element returns its index; of an empty mask it does not return, and a constant evaluation of
it is an error with every setting, also with the checks off. -/
theorem findFirstSet_checked (c : Cfg) (call : Call) (loc fn : List Char) (k : List Bool) :
    (∀ i : Nat, k[i]? = some true → (∀ j < i, k[j]? = some false) → findFirstSet c call loc fn k = ⟨false, .returns i⟩) ∧
      ((∀ i : Nat, k[i]? ≠ some true) → (∀ i, (findFirstSet c call loc fn k).fate ≠ .returns i) ∧
        (call.constEval = true → (findFirstSet c call loc fn k).fate = .rejected) ∧
        (call.constEval = false → c.level < 0 → (findFirstSet c call loc fn k).fate = .undefined)) := by
  constructor
  · intro i hi hj
    have hlt : i < k.length := (List.getElem?_eq_some_iff.1 hi).1
    have hki : k[i] = true := (List.getElem?_eq_some_iff.1 hi).2
    have hany : k.any id = true := List.any_eq_true.2 ⟨true, List.mem_of_getElem? hi, rfl⟩
    have hidx : k.findIdx? id = some i := by
      rw [List.findIdx?_eq_some_iff_getElem]
      refine ⟨hlt, hki, fun j hji => ?_⟩
      have := (List.getElem?_eq_some_iff.1 (hj j hji)).2
      simp [this]
    simp [findFirstSet, hany, check_holds, hidx]
  · intro hk
    have hany : k.any id = false := by
      rw [List.any_eq_false]
      intro b hb
      obtain ⟨j, hj⟩ := List.getElem?_of_mem hb
      cases b
      · simp
      · exact absurd hj (hk j)
    have hidx : k.findIdx? id = none := by
      rw [List.findIdx?_eq_none_iff]
      intro b hb
      simpa using (List.any_eq_false.1 hany) b hb
    refine ⟨fun i => ?_, fun hce => ?_, fun hce hl => ?_⟩
    · by_cases hl : 0 ≤ c.level
      · simp only [findFirstSet, hany]
        exact (check_stops c hl call _ _ _ ⟨false, .rejected⟩).2 i
      · have hl : c.level < 0 := by omega
        simp only [findFirstSet, check_off c hl, hidx]
        split <;> simp
    · simp [findFirstSet, check, hany, hidx, hce]
    · simp [findFirstSet, check_off c hl, hidx, hce]

/-- At the levels 4 and 5 a subscript out of range that the compiler did not see prints the subscript and the last valid one, with every
compiler. -/
theorem subscript_prints (c : Cfg) (hl : c.level = 4 ∨ c.level = 5) {loc : List Char} (hloc : '%' ∉ loc) (fn : List Char)
    (v : List α) (i : Nat) (h : v.length ≤ i) :
    subscript c ⟨false, false⟩ loc fn v i = ⟨false, .aborts (subscriptText loc fn i (v.length - 1))⟩ := by
  have hd : decide (i < v.length) = false := by simpa using h
  have hm := subscript_message hloc fn i (v.length - 1)
  unfold subscript
  rw [hd]
  generalize format loc subscriptMsg "i < size()".toList = fmt at hm ⊢
  rcases hl with hl | hl <;> simp [check, hl, invokeUb, hm]

/-- The subscript of a scalar simd: the element for subscript 0, in every configuration; with checks enabled no other subscript returns. -/
theorem subscriptScalar_checked (c : Cfg) (call : Call) (loc fn : List Char) (x : α) (i : Nat) :
    subscriptScalar c call loc fn x 0 = ⟨false, .returns x⟩ ∧
      (0 ≤ c.level → i ≠ 0 → ∀ y, (subscriptScalar c call loc fn x i).fate ≠ .returns y) := by
  refine ⟨by simp [subscriptScalar, check_holds], fun hl hi y => ?_⟩
  have hd : decide (i < 1) = false := by simpa using hi
  simp only [subscriptScalar, hd]
  exact (check_stops c hl call _ _ _ ⟨false, .rejected⟩).2 y

/-- On the scalar simd and on a simd with one element, a checked subscript has the same effect. -/
theorem subscriptScalar_eq (c : Cfg) (hl : 0 ≤ c.level) (call : Call) (loc fn : List Char) (x : α) (i : Nat) :
    subscriptScalar c call loc fn x i = subscript c call loc fn [x] i := by
  have hl' : ¬ c.level < 0 := by omega
  by_cases h : i = 0
  · subst h; simp [subscriptScalar, subscript, check_holds]
  · have hd : decide (i < 1) = false := by simpa using h
    have hd' : decide (i < [x].length) = false := by simpa using h
    unfold subscriptScalar subscript
    rw [hd, hd']
    generalize format loc subscriptMsg "i < size()".toList = fmt
    simp only [check, if_neg hl', List.length_singleton]
    repeat' split
    all_goals simp_all

/-- At the levels 4 and 5 `find_first_set` of an empty mask prints its message. -/
theorem findFirstSet_prints (c : Cfg) (hl : c.level = 4 ∨ c.level = 5) {loc : List Char} (hloc : '%' ∉ loc) (fn : List Char)
    (k : List Bool) (hk : ∀ i : Nat, k[i]? ≠ some true) :
    findFirstSet c ⟨false, false⟩ loc fn k = ⟨false, .aborts (loc ++ "precondition failure in '".toList ++ fn ++
        "': find_first_set(empty mask) is UB ('any_of(k)' does not hold)\n".toList)⟩ := by
  have hany : k.any id = false := by
    rw [List.any_eq_false]
    intro b hb
    obtain ⟨j, hj⟩ := List.getElem?_of_mem hb
    cases b
    · simp
    · exact absurd hj (hk j)
  have hm := findFirstSet_message hloc fn
  unfold findFirstSet
  rw [hany]
  generalize format loc "find_first_set(empty mask) is UB".toList "any_of(k)".toList = fmt at hm ⊢
  generalize (loc ++ "precondition failure in '".toList ++ fn ++
        "': find_first_set(empty mask) is UB ('any_of(k)' does not hold)\n".toList) = txt at hm ⊢
  rcases hl with hl | hl <;> simp [check, hl, invokeUb, hm]

/-- `assume_matching_size` with a matching range has no effect. -/
theorem assumeMatching_holds (c : Cfg) (call : Call) (loc fn : List Char) {n size : Nat} (h : size ∣ n) (rest : Run α) :
    assumeMatching c call loc fn n size rest = rest := by
  simp [assumeMatching, Nat.mod_eq_zero_of_dvd h, check_holds]

/-- With a range that does not match, at the levels 2 and 3, with GCC or Clang: the program traps (unless rejected at compile time). -/
theorem assumeMatching_traps (c : Cfg) (hg : GnuLike c) (hl : c.level = 2 ∨ c.level = 3) (loc fn : List Char) {n size : Nat}
    (h : ¬ size ∣ n) (rest : Run α) :
    assumeMatching c ⟨false, false⟩ loc fn n size rest = ⟨false, .traps⟩ := by
  have h' : (n % size == 0) = false := by
    simpa using fun hh => h (Nat.dvd_of_mod_eq_zero hh)
  rcases hl with hl | hl <;> simp [assumeMatching, h', check, hl, invokeUb, hg.1]

/-- At the levels 4 and 5, "print error and abort", it has undefined behaviour instead: for every range and width, every compiler and every
source location. -/
theorem assumeMatching_print_undefined (c : Cfg) (hl : c.level = 4 ∨ c.level = 5) {loc : List Char} (hloc : '%' ∉ loc)
    (fn : List Char) {n size : Nat} (h : ¬ size ∣ n) (rest : Run α) :
    assumeMatching c ⟨false, false⟩ loc fn n size rest = ⟨false, .undefined⟩ := by
  have h' : (n % size == 0) = false := by
    simpa using fun hh => h (Nat.dvd_of_mod_eq_zero hh)
  have hm := assume_message_undefined hloc fn n size
  unfold assumeMatching
  generalize format loc assumeMsg "distance % size == 0".toList = fmt at hm ⊢
  rcases hl with hl | hl <;> simp [h', check, hl, invokeUb, hm]

/-! ### Concrete cases -/

example : GnuLike {} := by simp [GnuLike]
example : ((({} : Cfg).level, true, RunTime.trap)) ∈ readmeTable := by simp [readmeTable]
example : subscript {} {} [] [] [10, 20, 30] 1 = ⟨false, .returns 20⟩ := subscript_in_range _ _ _ _ _ _ (by decide)
example : (subscript { level := 5 } {} "a.h:1: ".toList "f".toList [10, 20, 30] 3).fate =
    .aborts "a.h:1: precondition failure in 'f': Subscript 3 is out of range [0, 2] ('i < size()' does not hold)\n".toList := by
  decide +kernel
example : ¬ 4 ∣ 6 ∧ '%' ∉ "simd_execution.h:1126: ".toList := by decide
example : assumeMatching { level := 4 } {} [] [] 6 4 (⟨false, .returns ()⟩ : Run Unit) = ⟨false, .undefined⟩ :=
  assumeMatching_print_undefined _ (Or.inl rfl) (by simp) _ (by decide) _

/-! ## The theorems applied to concrete data -/

private def atLevel (l : Int) : Cfg := { level := l }

private theorem lev (l : Int) : GnuLike (atLevel l) := by simp [GnuLike, atLevel]

private theorem noPct : '%' ∉ "simd.h:1042: ".toList := by decide

example := check_stops (atLevel 3) (by decide) {} "x".toList [] (⟨false, .returns 1⟩ : Run Nat) ⟨false, .returns 2⟩
example := check_off (atLevel (-1)) (by decide) {} false "x".toList [] (⟨false, .returns 1⟩ : Run Nat)
example := check_constexpr (atLevel 3) (by decide) false "x".toList [] (⟨false, .returns 1⟩ : Run Nat)
example := check_run_time_partial (atLevel 5) (lev 5) (err := true) (act := .printAndAbort) (by simp [readmeTable, atLevel]) "x".toList [] rfl (⟨false, .returns 1⟩ : Run Nat)
example := check_clang_without_gnu ⟨2, false, 0, true⟩ rfl rfl (by decide) "x".toList [] (⟨false, .returns 1⟩ : Run Nat)
example := check_compile_time (atLevel 3) (lev 3) (err := true) (act := .trap) (by simp [readmeTable, atLevel]) "x".toList [] (⟨false, .returns 1⟩ : Run Nat)
example := check_warned_not_documented (atLevel 4) (lev 4) (.inr rfl) "x".toList [] "x".toList (⟨false, .returns 1⟩ : Run Nat)
example := check_other_compilers { level := 3, gnu := false, clang := false } rfl rfl (by decide) false "x".toList [] rfl (⟨false, .returns 1⟩ : Run Nat)
example := subscript_message noPct "operator[]".toList 4 3
example := findFirstSet_message noPct "find_first_set".toList
example := assume_message_undefined noPct "for_each".toList 6 4
example := assume_message_otherwise noPct (expr := "matching".toList) (by decide) "for_each".toList 6 4
example := subscript_out_of_range (atLevel 3) {} noPct "operator[]".toList [10, 20, 30] 3 (by decide)
example := subscript_default (atLevel 3) (lev 3) rfl [] [] [10, 20, 30] 1
example := subscript_off (atLevel (-1)) (by decide) [] [] 3 7 [10, 20, 30] (by decide)
example := subscript_prints (atLevel 5) (.inr rfl) noPct "operator[]".toList [10, 20, 30] 3 (by decide)
example := subscriptScalar_eq (atLevel 3) (by decide) {} [] [] 7 0
example := findFirstSet_prints (atLevel 4) (.inl rfl) noPct "find_first_set".toList [false, false] (by
  intro i h; have := List.mem_of_getElem? h; simp at this)
example := assumeMatching_holds (atLevel 3) {} [] [] (n := 12) (size := 4) (by decide) (⟨false, .returns 1⟩ : Run Nat)
example := assumeMatching_traps (atLevel 3) (lev 3) (.inr rfl) [] [] (n := 6) (size := 4) (by decide) (⟨false, .returns 1⟩ : Run Nat)

end Vir.Precondition
