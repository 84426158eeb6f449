import Verif.Model.MaskReductions

/-!
# Checked preconditions (`/repo/vir/simd.h` 41-174)

Everywhere else in the model a failed `vir_simd_precondition` is the outcome `trap`, which is what the default configuration does. This
file models the macro itself: the configuration macro `VIR_CHECK_PRECONDITIONS`, the compiler, the compile-time diagnostics and the
message that is printed.
-/

namespace Vir.Precondition

variable {α : Type}

/-- The configuration: the value of `VIR_CHECK_PRECONDITIONS` (`/repo/vir/simd.h` 86-101; 3 unless defined), whether `__GNUC__` is
defined (GCC, and Clang except as `clang-cl`), its value, and whether `__clang__` is defined. -/
structure Cfg where
  level : Int := 3
  gnu : Bool := true
  gnuc : Nat := 10
  clang : Bool := false

/-- What is known about a call: `constEval`: it is constant-evaluated; `known`: the optimizer has determined the value of the condition,
i.e. `__builtin_constant_p(precondition_result)`. `/repo/vir/simd.h` 109-174. -/
structure Call where
  constEval : Bool := false
  known : Bool := false

/-- What becomes of a program that makes a call. `rejected`: it is not compiled. `aborts msg`: `msg` is written to `stderr`, then
`std::abort()`. `/repo/vir/simd.h` 54-79, 109-174. -/
inductive Fate (α : Type) where
  | returns (a : α)
  | rejected
  | undefined
  | traps
  | aborts (msg : List Char)
deriving DecidableEq, Repr

/-- The fate together with the compile-time warning. `/repo/vir/simd.h` 109-174. -/
structure Run (α : Type) where
  warned : Bool
  fate : Fate α
deriving DecidableEq, Repr

/-! ### `std::fprintf` -/

/-- An argument of `std::fprintf`. The arguments of `fprintf` in `/repo/vir/simd.h` 66-67, 75. -/
inductive Arg where
  | str (s : List Char)
  | size (n : Nat)
  | int (i : Int)

/-- The state of the format parser: in ordinary text, after `%`, after `%` and flags, after `%z`. The format string in `/repo/vir/simd.h` 75. -/
inductive St where
  | text
  | pct
  | flags
  | z

/-- `std::fprintf(stderr, fmt, args...)` (`/repo/vir/simd.h` 76) for the conversions that occur: `%s`, `%d`, `%zu`, `%%`, and the flag
space. `none`: undefined behaviour, because a conversion has no argument, an argument of another type, or is not a conversion. As an
approximation the flag does not change what is printed; arguments left over are ignored, as in C. -/
def printf : St → List Char → List Arg → Option (List Char)
  | .text, [], _ => some []
  | .text, c :: cs, as => if c = '%' then printf .pct cs as else (printf .text cs as).map (c :: ·)
  | _, [], _ => none
  | .pct, c :: cs, as =>
    if c = '%' then (printf .text cs as).map ('%' :: ·)
    else if c = ' ' then printf .flags cs as
    else if c = 'z' then printf .z cs as
    else if c = 's' then
      match as with
      | .str s :: as => (printf .text cs as).map (s ++ ·)
      | _ => none
    else if c = 'd' then
      match as with
      | .int i :: as => (printf .text cs as).map ((toString i).toList ++ ·)
      | _ => none
    else none
  | .flags, c :: cs, as =>
    if c = ' ' then printf .flags cs as
    else if c = 'z' then printf .z cs as
    else if c = 's' then
      match as with
      | .str s :: as => (printf .text cs as).map (s ++ ·)
      | _ => none
    else if c = 'd' then
      match as with
      | .int i :: as => (printf .text cs as).map ((toString i).toList ++ ·)
      | _ => none
    else none
  | .z, c :: cs, as =>
    if c = 'u' then
      match as with
      | .size n :: as => (printf .text cs as).map ((toString n).toList ++ ·)
      | _ => none
    else none

/-- The format string built by the macros (`/repo/vir/simd.h` 137, 151, 161, 170):
`VIR_SIMD_LOC "precondition failure in '%s': " msg " ('" #expr "' does not hold)\n"`. `loc` is `VIR_SIMD_LOC` (84), `expr` is the text
of the condition. -/
def format (loc msg expr : List Char) : List Char :=
  loc ++ "precondition failure in '%s': ".toList ++ msg ++ " ('".toList ++ expr ++ "' does not hold)\n".toList

/-! ### The macros -/

/-- `invoke_ub` (`/repo/vir/simd.h` 64-79) with the format and its arguments. -/
def invokeUb (c : Cfg) (fmt : List Char) (args : List Arg) : Fate α :=
  if c.level < 2 then .undefined
  else if c.gnu && c.level < 4 then .traps
  else
    match printf .text fmt args with
    | some s => .aborts s
    | none => .undefined

/-- `trap()` (`/repo/vir/simd.h` 54-62): without `__GNUC__` it is `std::abort()`, which prints nothing. -/
def trap (c : Cfg) : Fate α := if c.gnu then .traps else .aborts []

/-- `vir_simd_precondition` and `vir_simd_precondition_vaargs` (`/repo/vir/simd.h` 109-174) followed by `rest`. The functions called on
failure are not `constexpr`, so reaching them in a constant evaluation is an error (109-114 has no such call). The function with the
attribute `error` or `warning` (131-135, 145-149) is called if `__builtin_constant_p` holds and the condition is false; the diagnostic
is then given. -/
def check (c : Cfg) (call : Call) (cond : Bool) (fmt : List Char) (args : List Arg) (rest : Run α) : Run α :=
  if c.level < 0 then rest
  else if call.constEval then
    if cond then rest else ⟨false, .rejected⟩
  else if c.clang || (c.gnu && c.gnuc ≥ 10) then
    if call.known && !cond then
      if c.level % 2 = 1 then ⟨false, .rejected⟩ else ⟨true, trap c⟩
    else if !cond then ⟨false, invokeUb c fmt args⟩
    else rest
  else if !cond then ⟨false, invokeUb c fmt args⟩
  else rest

/-! ### Functions with a precondition -/

/-- The message of the subscript operators. `/repo/vir/simd.h` 687, 695, 840, 848, 1301, 1309, 1630, 1638. -/
def subscriptMsg : List Char := "Subscript %zu is out of range [0, %zu]".toList

/-- `simd<T, fixed_size<N>>::operator[]` and `simd_mask<T, fixed_size<N>>::operator[]` (`/repo/vir/simd.h` 837-851, 1627-1641), read.
`fn` is the text of `__PRETTY_FUNCTION__`. -/
def subscript (c : Cfg) (call : Call) (loc fn : List Char) (v : List α) (i : Nat) : Run α :=
  check c call (decide (i < v.length)) (format loc subscriptMsg "i < size()".toList) [.str fn, .size i, .size (v.length - 1)]
    ⟨false, match v[i]? with
      | some x => .returns x
      | none => if call.constEval then .rejected else .undefined⟩

/-- `simd<T, scalar>::operator[]` and `simd_mask<T, scalar>::operator[]` (`/repo/vir/simd.h` 684-698, 1298-1312). -/
def subscriptScalar (c : Cfg) (call : Call) (loc fn : List Char) (x : α) (i : Nat) : Run α :=
  check c call (decide (i < 1)) (format loc subscriptMsg "i < size()".toList) [.str fn, .size i, .size 0] ⟨false, .returns x⟩

/-- `find_first_set(simd_mask<T, fixed_size<N>>)` (`/repo/vir/simd.h` 1054-1065). The subscripts in its loop are in range. -/
def findFirstSet (c : Cfg) (call : Call) (loc fn : List Char) (k : List Bool) : Run Nat :=
  check c call (k.any id) (format loc "find_first_set(empty mask) is UB".toList "any_of(k)".toList) [.str fn]
    ⟨false, match k.findIdx? id with
      | some i => .returns i
      | none => if call.constEval then .rejected else .undefined⟩

/-- The message of the algorithms (`/repo/vir/simd_execution.h` 736-737, 966-967, 1127-1128). -/
def assumeMsg : List Char :=
  ("The explicit assumption, that the range size (%zu) is a multiple" ++ " of the SIMD width (%d), does not hold.").toList

/-- The precondition of `for_each`, `transform` and `transform_reduce` with `assume_matching_size` on a non-empty range of `n` elements
and simds of `size` elements (`/repo/vir/simd_execution.h` 733-737, 963-967, 1124-1128); `rest` is the algorithm proper. -/
def assumeMatching (c : Cfg) (call : Call) (loc fn : List Char) (n size : Nat) (rest : Run α) : Run α :=
  check c call (n % size == 0) (format loc assumeMsg "distance % size == 0".toList) [.str fn, .size n, .int size] rest

end Vir.Precondition
