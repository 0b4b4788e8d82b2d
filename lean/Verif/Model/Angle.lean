import Verif.Model.Ext
import Verif.Model.Numbers

/-!
# Model of `ext/radians.hpp` and `ext/degrees.hpp`

`ld` is the format of `long double`, through which the constant `π` passes; `m` is the rounding mode in force.
-/

namespace Verif
namespace CC

/-- `ext/radians.hpp` l.25-27 -/
def radians (ld f : Fmt) (m : Mode) (degrees : ℕ) : ℕ := f.hdiv m (f.hmul m (Numbers.pi_v ld f) degrees) (lit f 180)

/-- `ext/degrees.hpp` l.25-27 -/
def degrees (ld f : Fmt) (m : Mode) (radians : ℕ) : ℕ := f.hdiv m (f.hmul m (lit f 180) radians) (Numbers.pi_v ld f)

/-- `safe::lerp_angle`, `ext/lerp_angle.hpp` l.47-49 -/
def safeLerpAngle (f : Fmt) (m : Mode) (start stop t : ℕ) : ℕ := f.hadd m start (f.hmul m (safeDeltaAngle f m start stop) t)

/-- `safe::move_towards_angle`, `ext/move_towards_angle.hpp` l.45-50 -/
def safeMoveTowardsAngle (f : Fmt) (m : Mode) (current target maxDelta : ℕ) : ℕ :=
  moveTowards f m current (f.hadd m current (safeDeltaAngle f m current target)) maxDelta

end CC
end Verif
