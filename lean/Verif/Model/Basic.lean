import Verif.Hw
import Verif.Model.FPBits

/-!
# Comparison, sign and selection functions

Models of `math/compare/*.hpp`, `math/basic/{fabs,min,max,fdim}.hpp`, `math/fmanip/copysign.hpp` and the
`internal/math/generic/func/basic/*_gen.hpp` they call.  Only the branch used when no compiler builtin is
available is modelled (`if constexpr (has_constexpr_*)` branches hand the arguments to the compiler).
Built-in operators (`<`, `==`, `*`, ...) are the hardware operations of `Verif/Hw.lean`.
-/

namespace Verif
namespace CC
variable (f : Fmt)

/-- `std::numeric_limits<T>::min()` (least normal number; language constant) -/
def limMin : ℕ := 2 ^ f.F
/-- `std::numeric_limits<T>::max()` (language constant) -/
def limMax : ℕ := f.infMag - 1
/-- literals `T(1)`, `T(-1)` -/
def oneLit (s : Bool) : ℕ := f.pack s (f.bias * 2 ^ f.F)

/-- `math/compare/isnan.hpp` l.27-37 -/
def isnan (x : ℕ) : Bool := FPBits.isNan f x
/-- `math/compare/isinf.hpp` l.28-38 -/
def isinf (x : ℕ) : Bool := FPBits.isInf f x
/-- `math/compare/isfinite.hpp` l.25-34 -/
def isfinite (x : ℕ) : Bool := FPBits.isFinite f x
/-- `math/compare/isunordered.hpp` l.28-35 -/
def isunordered (x y : ℕ) : Bool := isnan f x || isnan f y
/-- `math/compare/isgreater.hpp` l.28-35 -/
def isgreater (x y : ℕ) : Bool := !isunordered f x y && f.hgt x y
/-- `math/compare/isgreaterequal.hpp` l.28-35 -/
def isgreaterequal (x y : ℕ) : Bool := !isunordered f x y && f.hge x y
/-- `math/compare/isless.hpp` l.28-35 -/
def isless (x y : ℕ) : Bool := !isunordered f x y && f.hlt x y
/-- `math/compare/islessequal.hpp` l.28-35 -/
def islessequal (x y : ℕ) : Bool := !isunordered f x y && f.hle x y
/-- `math/compare/islessgreater.hpp` l.28-35 -/
def islessgreater (x y : ℕ) : Bool := !isunordered f x y && (f.hlt x y || f.hgt x y)

/-- `internal/math/generic/func/basic/abs_gen.hpp` l.29-42, reached from `math/basic/fabs.hpp` l.29-33, 79 -/
def abs (x : ℕ) : ℕ :=
  if FPBits.isNan f x then f.qnan
  else if FPBits.isZero f x then f.zero false
  else if f.hlt x (f.zero false) then f.hneg x else x

/-- `math/compare/isnormal.hpp` l.27-34 -/
def isnormal (x : ℕ) : Bool :=
  !(f.heq x (f.zero false)) && !isnan f x && !isinf f x && f.hge (abs f x) (limMin f)

/-- `internal/support/helpers/fpclassify_helper.hpp` l.28-63: one table per compiler -/
structure Defines where
  nan : ℤ
  infinite : ℤ
  zero : ℤ
  subnormal : ℤ
  normal : ℤ
/-- l.30-35 MSVC / clang-cl and l.48-53 Intel -/
def definesMSVC : Defines := ⟨2, 1, 0, -2, -1⟩
/-- l.36-41 Darwin -/
def definesDarwin : Defines := ⟨1, 2, 3, 5, 4⟩
/-- l.42-47 NVIDIA HPC -/
def definesNvidia : Defines := ⟨0, 1, 2, 2, 4⟩
/-- l.54-59 GCC / Clang -/
def definesGCC : Defines := ⟨0, 1, 2, 3, 4⟩

/-- `math/compare/fpclassify.hpp` l.30-37 -/
def fpclassify (d : Defines) (x : ℕ) : ℤ :=
  if isnan f x then d.nan
  else if isinf f x then d.infinite
  else if f.heq x (f.zero false) then d.zero
  else if f.hlt (abs f x) (limMin f) && f.hgt (abs f x) (f.zero false) then d.subnormal
  else d.normal

/-- `math/compare/signbit.hpp` l.34-48 -/
def signbit (x : ℕ) : Bool :=
  if f.heq x (f.zero false) || isnan f x then (x &&& FPBits.signMask f) != 0
  else f.hlt x (f.zero false)

/-- `math/fmanip/copysign.hpp` l.31-47, constant-evaluated branch (m = active rounding mode of the multiplication);
`copysign_rt.hpp` l.27-37 has the same text with `FPBits::abs`. `-quiet_NaN()` flips the sign of the constant. -/
def copysign (m : Mode) (mag sgn : ℕ) : ℕ :=
  if isnan f mag || isnan f sgn then (if signbit f sgn then f.hneg f.qnan else f.qnan)
  else f.hmul m (abs f mag) (if signbit f sgn then oneLit f true else oneLit f false)

/-- `copysign_rt.hpp` l.27-37 -/
def copysignRt (m : Mode) (mag sgn : ℕ) : ℕ :=
  if isnan f mag || isnan f sgn then (if signbit f sgn then f.hneg f.qnan else f.qnan)
  else f.hmul m (FPBits.abs f mag) (if signbit f sgn then oneLit f true else oneLit f false)

/-- `internal/math/generic/func/basic/min_gen.hpp` l.28-49 (floating-point instance) -/
def fmin (x y : ℕ) : ℕ :=
  if FPBits.isNan f x then y
  else if FPBits.isNan f y then x
  else if FPBits.isZero f x && FPBits.isZero f y then (if FPBits.isNeg f x then x else y)
  else if f.hlt x y then x else y

/-- `internal/math/generic/func/basic/max_gen.hpp` l.29-52 (floating-point instance) -/
def fmax (x y : ℕ) : ℕ :=
  if FPBits.isNan f x && FPBits.isNan f y then f.qnan
  else if FPBits.isNan f x then y
  else if FPBits.isNan f y then x
  else if FPBits.isZero f x && FPBits.isZero f y then (if FPBits.isNeg f x then y else x)
  else if f.hgt x y then x else y

/-- `internal/math/generic/func/basic/fdim_gen.hpp` l.31-46 -/
def fdim (m : Mode) (x y : ℕ) : ℕ :=
  if FPBits.isNan f x then x
  else if FPBits.isNan f y then y
  else if f.hle x y then f.zero false
  else if f.hlt y (f.zero false) && f.hgt x (f.hadd m (limMax f) y) then f.inf false
  else f.hsub m x y

end CC
end Verif
