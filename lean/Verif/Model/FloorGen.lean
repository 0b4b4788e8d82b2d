import Verif.Model.FpSupport
import Verif.Model.Nearest

/-!
# The loop version of floor: `internal/math/generic/func/nearest/floor_gen.hpp` (the same code is in `internal/math/common/nearest/floor.hpp`)

The loops have no obvious bound, so they run on fuel: `none` means that the fuel did not suffice.  A loop that never ends is `none` for every fuel.
-/

namespace Verif
namespace CC
variable (f : Fmt)

/-- `while (c(r)) r = st(r);` -/
def loop (c : ℕ → Bool) (st : ℕ → ℕ) : ℕ → ℕ → Option ℕ
  | 0, _ => none
  | n + 1, r => if c r then loop c st n (st r) else some r

/-- `floor_pos_impl`: `floor_gen.hpp` l.24-42.  `T(1) / epsilon` is written as the power of two `2^F`. -/
def floorPos (fuel : ℕ) (md : Mode) (num : ℕ) : Option ℕ :=
  if f.hge num (pow2 f false f.F) then some num
  else
    let result := oneLit f false
    if f.heq result num then some num
    else
      (loop (fun r => f.hlt r num) (fun r => f.hmul md r (pow2 f false 1)) fuel result).bind fun r =>
        loop (fun r => f.hgt r num) (fun r => f.hsub md r (oneLit f false)) fuel r

/-- `floor_neg_impl`: `floor_gen.hpp` l.44-58 -/
def floorNeg (fuel : ℕ) (md : Mode) (num : ℕ) : Option ℕ :=
  let result := oneLit f true
  if f.hgt result num then
    (loop (fun r => f.hgt r num) (fun r => f.hmul md r (pow2 f false 1)) fuel result).bind fun r =>
      (loop (fun r => f.hlt r num) (fun r => f.hadd md r (oneLit f false)) fuel r).map fun r =>
        if f.heq r num then r else f.hsub md r (oneLit f false)
  else some result

/-- `floor`: `floor_gen.hpp` l.67-77 -/
def floorGen (fuel : ℕ) (md : Mode) (num : ℕ) : Option ℕ :=
  if isinf f num || f.heq num (f.zero false) || isnan f num then some num
  else if f.hgt num (f.zero false) then floorPos f fuel md num
  else floorNeg f fuel md num

end CC
end Verif
