import Verif.Model.IntUtil
import Verif.Model.Basic

/-!
# Model of the integer overloads of `math/basic/fabs.hpp`

`none` is undefined behaviour (signed overflow).
-/

namespace Verif
namespace CC

/-- `math/basic/fabs.hpp` l.43-47: `abs` for signed integer types; also `labs` l.117-118 and `llabs` l.126-127 -/
def intAbs (t : ITy) (num : ℤ) : Option ℤ :=
  if num < 0 then (t.promote.arith (-num)).map t.conv else some num

/-- `math/basic/fabs.hpp` l.57-69: `abs` for unsigned types.  The condition `std::is_convertible_v<T, int>` of l.63 holds for every unsigned type, so
the value always goes through `int` (32 bits). -/
def uintAbs (t : ITy) (num : ℤ) : Option ℤ := (intAbs ⟨32, true⟩ (ITy.conv ⟨32, true⟩ num)).map t.conv

/-- `math/basic/fabs.hpp` l.90-91: `fabs` for integers, converted to double first; `m` is the rounding mode of the conversion -/
def intFabs (m : Mode) (num : ℤ) : ℕ := abs binary64 (binary64.ofInt m num)

end CC
end Verif
