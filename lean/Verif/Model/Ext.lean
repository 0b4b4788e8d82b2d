import Verif.Model.Basic
import Verif.Model.Nearest

/-!
# `ext` helpers and `lerp`

Models of the floating-point templates in `ext/*.hpp` and of `math/misc/lerp.hpp`.  `m` is the active rounding mode of the
built-in operators; expressions are evaluated in type `T` without contraction into fused operations.
`ccm::min`, `ccm::max`, `ccm::abs` and `ccm::floor` are the modelled generic versions.
-/

namespace Verif
namespace CC
variable (f : Fmt)

/-- the literal `T(k)` for a small non-negative integer `k` (the conversion of 0, 1, 2, 3, 180 and 360 is exact) -/
def lit (k : ℕ) : ℕ := f.ofInt .nearest k

/-- `ext/clamp.hpp` l.28-30 -/
def clamp (v lo hi : ℕ) : ℕ := fmin f (fmax f v lo) hi

/-- `ext/saturate.hpp` l.25-27 -/
def saturate (v : ℕ) : ℕ := clamp f v (f.zero false) (oneLit f false)

/-- `ext/sign.hpp` l.23-25: the difference of two `bool`s is an `int`, converted to `T` -/
def sign (m : Mode) (v : ℕ) : ℕ :=
  f.ofInt m ((if f.hlt (f.zero false) v then 1 else 0) - (if f.hlt v (f.zero false) then 1 else 0))

/-- `ext/step.hpp` l.24-26 -/
def step (edge v : ℕ) : ℕ := if f.hlt v edge then f.zero false else oneLit f false

/-- `ext/move_towards.hpp` l.27-35 -/
def moveTowards (m : Mode) (current target maxDelta : ℕ) : ℕ :=
  let delta := f.hsub m target current
  if f.hle (abs f delta) maxDelta then target
  else f.hadd m current (if f.hgt delta (f.zero false) then maxDelta else f.hneg maxDelta)

/-- `math/misc/lerp.hpp` l.27-41 -/
def lerp (m : Mode) (a b t : ℕ) : ℕ :=
  if isnan f a || isnan f b || isnan f t then f.hadd m (f.hadd m a b) t
  else if (f.hle a (f.zero false) && f.hge b (f.zero false)) || (f.hge a (f.zero false) && f.hle b (f.zero false)) then
    f.hadd m (f.hmul m t b) (f.hmul m (f.hsub m (oneLit f false) t) a)
  else if f.heq t (oneLit f false) then b
  else
    let x := f.hadd m a (f.hmul m t (f.hsub m b a))
    if f.hgt t (oneLit f false) == f.hgt b a then (if f.hlt b x then x else b)
    else (if f.hlt x b then x else b)

/-- `ext/fract.hpp` l.25-27 -/
def fract (m : Mode) (x : ℕ) : ℕ := f.hsub m x (floor f m x)

/-- `ext/repeat.hpp` l.26-28 -/
def repeat' (m : Mode) (value length : ℕ) : ℕ :=
  f.hsub m value (f.hmul m (floor f m (f.hdiv m value length)) length)

/-- `safe::repeat`, `ext/repeat.hpp` l.43-49 -/
def safeRepeat (m : Mode) (value length : ℕ) : ℕ :=
  if f.heq length (f.zero false) then f.zero false else repeat' f m value length

/-- `ext/ping_pong.hpp` l.27-33 for `T = double` (for `T = float` the literal `2.0` makes the intermediate expression
`double`; that instance is not modelled). -/
def pingPong (m : Mode) (a b : ℕ) : ℕ :=
  if f.heq b (f.zero false) then f.zero false
  else
    let q := f.hdiv m (f.hsub m a b) (f.hmul m b (twoLit f false))
    abs f (f.hsub m (f.hmul m (f.hmul m (fract f m q) b) (twoLit f false)) b)

/-- `ext/delta_angle.hpp` l.26-34 -/
def deltaAngle (m : Mode) (current target : ℕ) : ℕ :=
  let delta := repeat' f m (f.hsub m target current) (lit f 360)
  if f.hgt delta (lit f 180) then f.hsub m delta (lit f 360) else delta

/-- `safe::delta_angle`, `ext/delta_angle.hpp` (the same text with `safe::repeat`) -/
def safeDeltaAngle (m : Mode) (current target : ℕ) : ℕ :=
  let delta := safeRepeat f m (f.hsub m target current) (lit f 360)
  if f.hgt delta (lit f 180) then f.hsub m delta (lit f 360) else delta

/-- `ext/normalize.hpp` l.27-29 -/
def normalize (m : Mode) (value min max : ℕ) : ℕ :=
  clamp f (f.hdiv m (f.hsub m value min) (f.hsub m max min)) (f.zero false) (oneLit f false)

/-- `safe::normalize`, `ext/normalize.hpp` l.47-55 -/
def safeNormalize (m : Mode) (value min max : ℕ) : ℕ :=
  let length := f.hsub m max min
  if f.heq length (f.zero false) then f.zero false
  else clamp f (f.hdiv m (f.hsub m value min) length) (f.zero false) (oneLit f false)

/-- `ext/unlerp.hpp` l.29-31; `ext/inverse_lerp.hpp` l.30-32 forwards to it -/
def unlerp (m : Mode) (start stop value : ℕ) : ℕ := f.hdiv m (f.hsub m value start) (f.hsub m stop start)

/-- `safe::unlerp`, `ext/unlerp.hpp` l.50-58 -/
def safeUnlerp (m : Mode) (start stop value : ℕ) : ℕ :=
  let length := f.hsub m stop start
  if f.heq length (f.zero false) then f.zero false else f.hdiv m (f.hsub m value start) length

/-- `ext/mix.hpp` l.25-30 -/
def mix (m : Mode) (x y a : ℕ) : ℕ :=
  f.hadd m (f.hmul m x (f.hsub m (oneLit f false) a)) (f.hmul m y a)

/-- `ext/remap.hpp` l.37-39 -/
def remap (m : Mode) (srcStart srcEnd dstStart dstEnd x : ℕ) : ℕ :=
  f.hadd m dstStart
    (f.hdiv m (f.hmul m (f.hsub m x srcStart) (f.hsub m dstEnd dstStart)) (f.hsub m srcEnd srcStart))

/-- `safe::remap`, `ext/remap.hpp` l.64-72 -/
def safeRemap (m : Mode) (srcStart srcEnd dstStart dstEnd x : ℕ) : ℕ :=
  let length := f.hsub m srcEnd srcStart
  if f.heq length (f.zero false) then dstStart
  else f.hadd m dstStart (f.hdiv m (f.hmul m (f.hsub m x srcStart) (f.hsub m dstEnd dstStart)) length)

/-- `ext/smoothstep.hpp` l.27-34 -/
def smoothstep (m : Mode) (edge0 edge1 x : ℕ) : ℕ :=
  let x := clamp f (f.hdiv m (f.hsub m x edge0) (f.hsub m edge1 edge0)) (f.zero false) (oneLit f false)
  f.hmul m (f.hmul m x x) (f.hsub m (lit f 3) (f.hmul m (twoLit f false) x))

/-- `ext/approximately.hpp` l.27-29 -/
def approximately (m : Mode) (lhs rhs epsilon : ℕ) : Bool := f.hle (abs f (f.hsub m lhs rhs)) epsilon

/-- `ext/chgsign.hpp` l.29-38 -/
def chgsign (x y : ℕ) : ℕ :=
  let magnitude := abs f x
  if y &&& FPBits.signMask f ≠ 0 then f.hneg magnitude else magnitude

/-- `ext/rcp.hpp` l.23-25 -/
def rcp (m : Mode) (x : ℕ) : ℕ := f.hdiv m (oneLit f false) x

/-- `ext/cubic.hpp` l.27-38 -/
def cubic (m : Mode) (y0 y1 y2 y3 t : ℕ) : ℕ :=
  let a0 := f.hadd m (f.hsub m (f.hsub m y3 y2) y0) y1
  let a1 := f.hsub m (f.hsub m y0 y1) a0
  let a2 := f.hsub m y2 y0
  let t2 := f.hmul m t t
  f.hadd m (f.hadd m (f.hadd m (f.hmul m (f.hmul m a0 t) t2) (f.hmul m a1 t2)) (f.hmul m a2 t)) y1

/-- `ext/move_towards_angle.hpp` l.28-33 -/
def moveTowardsAngle (m : Mode) (current target maxDelta : ℕ) : ℕ :=
  moveTowards f m current (f.hadd m current (deltaAngle f m current target)) maxDelta

/-- `ext/lerp_angle.hpp` l.30-32 -/
def lerpAngle (m : Mode) (start stop t : ℕ) : ℕ := f.hadd m start (f.hmul m (deltaAngle f m start stop) t)

end CC
end Verif
