/-!
# Version numbers (`/repo/vir/simd_version.h`)

The components are C++ `int`s; no arithmetic is done on them, so they are modelled by unbounded integers.
-/

namespace Vir.Version

/-- `simd_version_t` (`/repo/vir/simd_version.h` 55-62). -/
structure Version where
  major : Int
  minor : Int
  patchlevel : Int
deriving DecidableEq, Repr

/-- `operator==` (`/repo/vir/simd_version.h` 65-67). -/
def eq (a b : Version) : Bool := a.major == b.major && a.minor == b.minor && a.patchlevel == b.patchlevel

/-- `operator!=` (`/repo/vir/simd_version.h` 70-72). -/
def ne (a b : Version) : Bool := !eq a b

/-- `operator<` without `<=>` (`/repo/vir/simd_version.h` 79-85). -/
def lt (a b : Version) : Bool :=
  decide (a.major < b.major)
    || (a.major == b.major && decide (a.minor < b.minor))
    || (a.major == b.major && a.minor == b.minor && decide (a.patchlevel < b.patchlevel))

/-- `operator<=` without `<=>` (`/repo/vir/simd_version.h` 87-93). -/
def le (a b : Version) : Bool :=
  decide (a.major < b.major)
    || (a.major == b.major && decide (a.minor < b.minor))
    || (a.major == b.major && a.minor == b.minor && decide (a.patchlevel ≤ b.patchlevel))

/-- `operator>` without `<=>` (`/repo/vir/simd_version.h` 95-97). -/
def gt (a b : Version) : Bool := lt b a

/-- `operator>=` without `<=>` (`/repo/vir/simd_version.h` 99-101). -/
def ge (a b : Version) : Bool := le b a

/-- `<=>` on `int`, used memberwise by the defaulted operator. `/repo/vir/simd_version.h` 64-77. -/
def cmpInt (a b : Int) : Ordering := if a < b then .lt else if a = b then .eq else .gt

/-- The defaulted `operator<=>` (`/repo/vir/simd_version.h` 74-77): the members are compared in declaration order, the
first difference decides. -/
def spaceship (a b : Version) : Ordering :=
  match cmpInt a.major b.major with
  | .eq => match cmpInt a.minor b.minor with
    | .eq => cmpInt a.patchlevel b.patchlevel
    | o => o
  | o => o

/-- `VIR_SIMD_VERSION` (`/repo/vir/simd_version.h` 28). -/
def macroVersion : Int := 0x0004bd

/-- `VIR_SIMD_VERSION_MAJOR` (`/repo/vir/simd_version.h` 33) for the value `v` of the version macro. -/
def macroMajor (v : Int) : Int := v.tdiv 0x10000

/-- `VIR_SIMD_VERSION_MINOR` (`/repo/vir/simd_version.h` 38). -/
def macroMinor (v : Int) : Int := (v.tmod 0x10000).tdiv 0x100

/-- `VIR_SIMD_VERSION_PATCHLEVEL` (`/repo/vir/simd_version.h` 43). -/
def macroPatchlevel (v : Int) : Int := v.tmod 0x100

/-- `simd_version` (`/repo/vir/simd_version.h` 113-114) for the value `v` of the version macro. -/
def versionOf (v : Int) : Version := ⟨macroMajor v, macroMinor v, macroPatchlevel v⟩

end Vir.Version
