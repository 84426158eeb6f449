import Verif.Outcome

/-!
# Integer literals `_cw` (`/repo/vir/constexpr_wrapper.h` 378-466)

The literal operator receives the characters of the literal as template arguments. Characters are compared by their
code; `static_assert` failures are `ub staticAssert`.
-/

namespace Vir.Literal

/-- The types a literal can have (`/repo/vir/constexpr_wrapper.h` 413-457). -/
inductive LitTy where
  | schar | short | int | long | llong | ullong
deriving DecidableEq, Repr

/-- `cw_prepare_array` (`/repo/vir/constexpr_wrapper.h` 380-391): digit separators are removed. -/
def prepare (chars : List Char) : List Char := chars.filter (· != '\'')

/-- `base` (`/repo/vir/constexpr_wrapper.h` 398-401). `arr[0]` of an empty array is an error; `operator""_cw` is never called
without characters. -/
def baseOf (arr : List Char) : Nat :=
  if arr[0]? = some '0' ∧ 2 < arr.length then
    if arr[1]? = some 'x' ∨ arr[1]? = some 'X' then 16 else if arr[1]? = some 'b' then 2 else 8
  else 10

/-- `offset` (`/repo/vir/constexpr_wrapper.h` 402). -/
def offsetOf (base : Nat) : Nat := if base = 10 then 0 else if base = 8 then 1 else 2

/-- The lambda of `valid_chars` (`/repo/vir/constexpr_wrapper.h` 403-409). -/
def validChar (base : Nat) (c : Char) : Bool :=
  if base = 16 then
    (decide ('a'.toNat ≤ c.toNat) && decide (c.toNat ≤ 'f'.toNat))
      || (decide ('A'.toNat ≤ c.toNat) && decide (c.toNat ≤ 'F'.toNat))
      || (decide ('0'.toNat ≤ c.toNat) && decide (c.toNat ≤ '9'.toNat))
  else decide ('0'.toNat ≤ c.toNat) && decide (c.toNat < '0'.toNat + base)

/-- `nextdigit` (`/repo/vir/constexpr_wrapper.h` 427-434). -/
def nextDigit (base : Nat) (c : Char) : Nat :=
  if base = 16 then
    if c.toNat ≥ 'a'.toNat then c.toNat - 'a'.toNat + 10
    else if c.toNat ≥ 'A'.toNat then c.toNat - 'A'.toNat + 10
    else c.toNat - '0'.toNat
  else c.toNat - '0'.toNat

/-- `std::numeric_limits<unsigned long long>::max()`. `/repo/vir/constexpr_wrapper.h` 423. -/
def ullMax : Nat := 2 ^ 64 - 1

/-- The loop over the digits (`/repo/vir/constexpr_wrapper.h` 425-442); zero on overflow. -/
def accumulate (base : Nat) : List Char → Nat → Nat
  | [], x => x
  | c :: cs, x =>
    let nextdigit := nextDigit base c
    if x > ullMax / base then 0
    else
      let x := x * base
      if x > ullMax - nextdigit then 0
      else accumulate base cs (x + nextdigit)

/-- The choice of the type (`/repo/vir/constexpr_wrapper.h` 445-456); `longBits` is the width of `long`. -/
def typeOf (longBits : Nat) (x : Nat) : LitTy :=
  if x ≤ 2 ^ 7 - 1 then .schar
  else if x ≤ 2 ^ 15 - 1 then .short
  else if x ≤ 2 ^ 31 - 1 then .int
  else if x ≤ 2 ^ (longBits - 1) - 1 then .long
  else if x ≤ 2 ^ 63 - 1 then .llong
  else .ullong

/-- `cw_parse` (`/repo/vir/constexpr_wrapper.h` 393-458): the type and value of the literal. -/
def parse (longBits : Nat) (chars : List Char) : Outcome (LitTy × Nat) :=
  let arr := prepare chars
  let base := baseOf arr
  let digits := arr.drop (offsetOf base)
  if !digits.all (validChar base) then .ub .staticAssert
  else if arr = ['0'] then .ok (.schar, 0)
  else if arr = ['1'] then .ok (.schar, 1)
  else if arr = ['2'] then .ok (.schar, 2)
  else
    let x := accumulate base digits 0
    if x = 0 then .ub .staticAssert else .ok (typeOf longBits x, x)

end Vir.Literal
