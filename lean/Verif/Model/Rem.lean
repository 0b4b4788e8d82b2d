import Verif.Model.Nearest

/-!
# Models of `fmod`, `remainder` and `remquo`

Only the ccmath code is modelled: the constant-evaluated branch of `fmod`/`remainder` (at run time these functions call the
compiler builtin, `internal/math/runtime/func/basic/{fmod,remainder}_rt.hpp`).  `hm` is the rounding mode the built-in
operators run in; constant evaluation uses `nearest`.
-/

namespace Verif.CC
variable (f : Fmt)

/-- `math/basic/fmod.hpp` l.35-71 (`internal/math/generic/func/basic/fmod_gen.hpp` l.25-64 is the same text) -/
def fmod (hm : Mode) (x y : ℕ) : ℕ :=
  if FPBits.isZero f x && !FPBits.isZero f y then x
  else if (FPBits.isInf f x && !FPBits.isNan f y) || (FPBits.isZero f y && !FPBits.isNan f x) then f.hneg f.qnan
  else if FPBits.isInf f y && FPBits.isFinite f x then x
  else if FPBits.isNan f x || FPBits.isNan f y then f.qnan
  else f.hsub hm x (f.hmul hm (trunc f (f.hdiv hm x y)) y)

/-- `math/basic/remainder.hpp` l.35-51 -/
def remainder (hm : Mode) (x y : ℕ) : ℕ :=
  if (FPBits.isInf f x && !FPBits.isNan f y) || (FPBits.isZero f y && !FPBits.isNan f x) || (FPBits.isNan f x || FPBits.isNan f y) then
    f.hneg f.qnan
  else f.hsub hm x (f.hmul hm (trunc f (f.hdiv hm x y)) y)

/-- literals `2^j` (`8`, `4`, `2` converted to the floating type) -/
def twoPowLit (j : ℕ) : ℕ := f.pack false ((f.bias + j) * 2 ^ f.F)
/-- literal `0.5` -/
def halfLit : ℕ := f.pack false ((f.bias - 1) * 2 ^ f.F)

/-- `math/basic/impl/remquo_double_impl.hpp` l.79-89: one conditional subtraction of `2^j * y` -/
def remquoRed (hm : Mode) (c j : ℕ) (y : ℕ) (st : ℕ × ℤ) : ℕ × ℤ :=
  if decide (f.mag y ≤ c) && f.hge st.1 (f.hmul hm (twoPowLit f j) y) then
    (f.hsub hm st.1 (f.hmul hm (twoPowLit f j) y), st.2 + 2 ^ j)
  else st

/-- `math/basic/impl/remquo_double_impl.hpp` l.91-117: the last two quotient units -/
def remquoLast (hm : Mode) (cs : ℕ) (y : ℕ) (st : ℕ × ℤ) : ℕ × ℤ :=
  if f.mag y < cs then
    if f.hgt (f.hadd hm st.1 st.1) y then
      let x := f.hsub hm st.1 y
      if f.hge (f.hadd hm x x) y then (f.hsub hm x y, st.2 + 1 + 1) else (x, st.2 + 1)
    else st
  else
    let yh := f.hmul hm (halfLit f) y
    if f.hgt st.1 yh then
      let x := f.hsub hm st.1 y
      if f.hge x yh then (f.hsub hm x y, st.2 + 1 + 1) else (x, st.2 + 1)
    else st

/-- `math/basic/impl/remquo_double_impl.hpp` l.27-129, `remquo_float_impl.hpp` l.26-108, with the four thresholds `c8 c4 c2 cs`
and the called `fmod` as parameters.  The quotient is `none` where the code returns without writing `*quo`.  `y = fabsf(y)`
(float, l.61) and `int64_to_double(y_i64)` (double, l.76) are both written as clearing the sign bit; they agree for non-NaN `y`
(C03). -/
def remquo (fm : ℕ → ℕ → ℕ) (c8 c4 c2 cs : ℕ) (hm : Mode) (x y : ℕ) : ℕ × Option ℤ :=
  let xs := f.sgn x
  let qs := xor (f.sgn x) (f.sgn y)
  let nan := f.hdiv hm (f.hmul hm x y) (f.hmul hm x y)
  if f.mag y = 0 then (nan, none)
  else if f.infMag ≤ f.mag x ∨ f.infMag < f.mag y then (nan, none)
  else
    let x1 := if f.mag y ≤ c8 then fm x (f.hmul hm (twoPowLit f 3) y) else x
    if f.mag x = f.mag y then (f.hmul hm (f.zero false) x1, some (if qs then -1 else 1))
    else
      let y' := f.mag y
      let st := remquoLast f hm cs y' (remquoRed f hm c2 1 y' (remquoRed f hm c4 2 y' (abs f x1, 0)))
      let x2 := if f.heq st.1 (f.zero false) then f.zero false else st.1
      (if xs then f.hneg x2 else x2, some (if qs then -st.2 else st.2))

/-- `math/basic/impl/remquo_double_impl.hpp` l.132-133 -/
def remquoDouble (fm : ℕ → ℕ → ℕ) : Mode → ℕ → ℕ → ℕ × Option ℤ :=
  remquo binary64 fm 0x7fbfffffffffffff 0x7fcfffffffffffff 0x7fdfffffffffffff 0x0020000000000000
/-- `math/basic/impl/remquo_float_impl.hpp` l.111-112 -/
def remquoFloat (fm : ℕ → ℕ → ℕ) : Mode → ℕ → ℕ → ℕ × Option ℤ :=
  remquo binary32 fm 0x7dffffff 0x7e7fffff 0x7effffff 0x01000000

end Verif.CC
