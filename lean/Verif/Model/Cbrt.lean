import Verif.Model.Log
import Verif.Model.Exp
import Verif.Model.Basic

/-!
# Cube root (`internal/math/generic/func/power/impl/cbrt_impl.hpp`)
-/

namespace Verif.CC
open Fmt

/-- cbrt_impl.hpp l.24-46 `cbrt_impl`, for a format `f`, with `ccm::exp` and `ccm::log` as parameters; `two` and `three` are `T(2)` and `T(3)` -/
def cbrtImpl (f : Fmt) (exp log : ℕ → ℕ) (two three : ℕ) (md : Mode) (x : ℕ) : ℕ :=
  if FPBits.isNan f x then x
  else if FPBits.isInf f x then x
  else if FPBits.isZero f x then x
  else
    let negative := FPBits.isNeg f x
    let ax := abs f x
    let y := exp (f.hdiv md (log ax) three)
    let ySq := f.hmul md y y
    let y := f.hdiv md (f.hadd md (f.hmul md two y) (f.hdiv md ax ySq)) three
    if negative then f.hneg y else y

/-- `ccm::cbrt<double>` (cbrt_gen.hpp l.22) -/
def cbrtDouble (md : Mode) (x : ℕ) : ℕ := cbrtImpl binary64 (expDouble md) (logDouble md) 0x4000000000000000 0x4008000000000000 md x
/-- `ccm::cbrt<float>` (cbrt_gen.hpp l.21) -/
def cbrtFloat (md : Mode) (x : ℕ) : ℕ := cbrtImpl binary32 (expFloat md) (logFloat md) 0x40000000 0x40400000 md x

end Verif.CC
