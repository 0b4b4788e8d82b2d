import Verif.Model.Trig
import Verif.Model.Basic

/-!
# Model of `ccm::min` for arguments of different types

`math/basic/min.hpp` l.56-64 with `T = int`, `U = double`.
-/

namespace Verif
namespace CC

/-- `math/basic/min.hpp` l.56-64: both arguments go to the common type `double`, but the return type is `T = int`, so the result is converted back.
(`max`, `math/basic/max.hpp` l.58, returns the common type.)  `none`: conversion to `int` out of range. -/
def minMixed (m : Mode) (x : ℤ) (y : ℕ) : Option ℤ := toInt32 binary64 (fmin binary64 (binary64.ofInt m x) y)

end CC
end Verif
