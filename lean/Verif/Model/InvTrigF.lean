import Verif.Model.InvTrig

/-!
# Model of float asin, acos, atan, atan2

Source: `math/trig/impl/inv_trig_impl.hpp` instantiated at `float`, `math/trig/impl/inv_trig_data.hpp`. `errno` and exception flags are left out. The double constants of the
source are converted to float at compile time, to nearest, so their bit patterns do not depend on the rounding mode. `fused` says whether `multiply_add` is a fused
operation, `md` is the rounding mode in force. A conversion from double to float is `hcvt binary32 binary64`, from float to double `hcvt binary64 binary32`.
-/

namespace Verif.CC
open Fmt

/-- inv_trig_impl.hpp l.36-52 `asin_eval<float>` with the coefficients of inv_trig_data.hpp l.21-24 rounded to float -/
def asinEvalF (fused : Bool) (md : Mode) (xsq : ℕ) : ℕ :=
  let ma := multiplyAdd binary32 fused md
  let x4 := binary32.hmul md xsq xsq
  let c0 := ma xsq 0x3D99999A 0x3E2AAAAB
  let c1 := ma xsq 0x3CF8E396 0x3D36DB6E
  let c2 := ma xsq 0x3C8E3609 0x3CB744F8
  let c3 := ma xsq 0x3C476B05 0x3C637D42
  let c4 := ma xsq 0x3CA0290A 0x3BD59D05
  let c5 := ma xsq 0x3D02CC2D 0xBC852D1C
  let x8 := binary32.hmul md x4 x4
  let d0 := ma x4 c1 c0
  let d1 := ma x4 c3 c2
  let d2 := ma x4 c5 c4
  ma x8 (ma x8 d2 d1) d0

/-- l.55-82 `acos_kernel<float>`; the value rebuilt from the bits of `ax` is `ax` itself -/
def acosKernelF (fused : Bool) (md : Mode) (x : ℕ) : ℕ :=
  let ma := multiplyAdd binary32 fused md
  let ax := abs binary32 x
  if binary32.hle ax 0x3F000000 then
    if binary32.hlt ax 0x3A800000 then
      binary32.hadd md 0x3FC90FDB (ma (binary32.hmul md 0xBE2AAAAB x) (binary32.hmul md x x) (binary32.hneg x))
    else
      let xsq := binary32.hmul md x x
      let x3 := binary32.hmul md x xsq
      let r := asinEvalF fused md xsq
      ma (binary32.hneg x3) r (binary32.hsub md 0x3FC90FDB x)
  else
    let u := ma 0xBF000000 ax 0x3F000000
    let cv := binary32.hmul md 0x40000000 (sqrt binary32 md u)
    let r3 := asinEvalF fused md u
    let r := ma (binary32.hmul md cv u) r3 cv
    if binary32.hlt x 0 then binary32.hsub md 0x40490FDB r else r

/-- l.83-108 `asin_small_impl<float>`: the evaluation above `2^-14` is in double, rounded once at the end -/
def asinSmallF (fused : Bool) (md : Mode) (x : ℕ) : ℕ :=
  let ax := abs binary32 x
  if binary32.hlt ax 0x38800000 then
    binary32.hadd md x (binary32.hmul md (binary32.hmul md (binary32.hmul md x x) x) 0x3E2AAAAB)
  else
    let dx := binary64.hcvt binary32 md x
    let xsq := binary64.hmul md dx dx
    let r := asinEval fused md xsq
    binary32.hcvt binary64 md (binary64.hadd md dx (binary64.hmul md (binary64.hmul md dx xsq) r))

/-- l.111-137 `acos_impl<float>` -/
def acosFloat (fused : Bool) (md : Mode) (x : ℕ) : ℕ :=
  if FPBits.isNan binary32 x then x
  else if FPBits.isInf binary32 x then binary32.hadd md x (FPBits.quietNaN binary32 false 0)
  else
    let ax := abs binary32 x
    if binary32.hgt ax 0x3F800000 then binary32.hadd md x (FPBits.quietNaN binary32 false 0)
    else if binary32.heq ax 0x3F800000 then (if binary32.hlt x 0 then 0x40490FDB else 0)
    else acosKernelF fused md x

/-- l.140-147 `asin_impl<float>` -/
def asinFloat (fused : Bool) (md : Mode) (x : ℕ) : ℕ :=
  if binary32.heq x 0 then x
  else if binary32.hle (abs binary32 x) 0x3F000000 then asinSmallF fused md x
  else binary32.hsub md (binary32.hdiv md 0x40490FDB 0x40000000) (acosFloat fused md x)

/-- l.150-158 `atan_impl<float>`: double `atan`, rounded to float -/
def atanFloat (fused : Bool) (md : Mode) (x : ℕ) : ℕ := binary32.hcvt binary64 md (atanDouble fused md (binary64.hcvt binary32 md x))

/-- l.204-269 `atan2_impl<float>` -/
def atan2Float (fused : Bool) (md : Mode) (y x : ℕ) : ℕ :=
  let pi := 0x40490FDB
  if isnan binary32 y || isnan binary32 x then binary32.hadd md y x
  else if isinf binary32 x then
    if binary32.hgt x 0 then
      if isinf binary32 y then
        if binary32.hgt y 0 then binary32.hdiv md pi 0x40800000
        else if binary32.hlt y 0 then binary32.hdiv md (binary32.hneg pi) 0x40800000
        else y
      else if binary32.hgt y 0 then 0
      else if binary32.hlt y 0 then 0x80000000
      else y
    else if isinf binary32 y then
      if binary32.hgt y 0 then binary32.hdiv md (binary32.hmul md 0x40400000 pi) 0x40800000
      else if binary32.hlt y 0 then binary32.hdiv md (binary32.hmul md (binary32.hneg 0x40400000) pi) 0x40800000
      else if FPBits.isNeg binary32 y then binary32.hneg pi else pi
    else if binary32.hgt y 0 then pi
    else if binary32.hlt y 0 then binary32.hneg pi
    else if FPBits.isNeg binary32 y then binary32.hneg pi else pi
  else if isinf binary32 y then
    let piOver2 := binary32.hdiv md pi 0x40000000
    if FPBits.isNeg binary32 y then binary32.hneg piOver2 else piOver2
  else if binary32.heq x 0 then
    let piOver2 := binary32.hdiv md pi 0x40000000
    if binary32.hgt y 0 then piOver2
    else if binary32.hlt y 0 then binary32.hneg piOver2
    else if FPBits.isNeg binary32 x then (if FPBits.isNeg binary32 y then binary32.hneg pi else pi)
    else y
  else
    let ratio := binary32.hdiv md y x
    let angle := atanFloat fused md ratio
    if binary32.hlt x 0 then (if binary32.hge y 0 then binary32.hadd md angle pi else binary32.hsub md angle pi)
    else angle

end Verif.CC
