import Verif.Model.Trig
import Verif.Model.Sqrt
import Verif.Model.Basic

/-!
# Model of double asin, acos, atan, atan2

Source: `math/trig/impl/inv_trig_impl.hpp`, `math/trig/impl/inv_trig_data.hpp`. `errno` and exception flags are left out. Constants are converted at compile time, so
their bit patterns do not depend on the rounding mode. `fused` says whether `multiply_add` is a fused operation, `md` is the rounding mode in force.
-/

namespace Verif.CC
open Fmt

/-- inv_trig_impl.hpp l.36-52 `asin_eval<double>` with the coefficients of inv_trig_data.hpp l.21-24 -/
def asinEval (fused : Bool) (md : Mode) (xsq : ℕ) : ℕ :=
  let ma := multiplyAdd binary64 fused md
  let x4 := binary64.hmul md xsq xsq
  let c0 := ma xsq 0x3FB333333336FD5B 0x3FC5555555555380
  let c1 := ma xsq 0x3F9F1C72C66896DE 0x3FA6DB6DB41CE4BC
  let c2 := ma xsq 0x3F91C6C111DE4074 0x3F96E89F0A0AC64B
  let c3 := ma xsq 0x3F88ED60A3E6DD19 0x3F8C6FA84B5699AC
  let c4 := ma xsq 0x3F9405213CD1EF46 0x3F7AB3A090750049
  let c5 := ma xsq 0x3FA05985A32A9045 0xBF90A5A381F73F65
  let x8 := binary64.hmul md x4 x4
  let d0 := ma x4 c1 c0
  let d1 := ma x4 c3 c2
  let d2 := ma x4 c5 c4
  ma x8 (ma x8 d2 d1) d0

/-- l.55-82 `acos_kernel<double>`; the value rebuilt from the bits of `ax` is `ax` itself -/
def acosKernel (fused : Bool) (md : Mode) (x : ℕ) : ℕ :=
  let ma := multiplyAdd binary64 fused md
  let ax := abs binary64 x
  if binary64.hle ax 0x3FE0000000000000 then
    if binary64.hlt ax 0x3F50000000000000 then
      binary64.hadd md 0x3FF921FB54442D18 (ma (binary64.hmul md 0xBFC5555555555555 x) (binary64.hmul md x x) (binary64.hneg x))
    else
      let xsq := binary64.hmul md x x
      let x3 := binary64.hmul md x xsq
      let r := asinEval fused md xsq
      ma (binary64.hneg x3) r (binary64.hsub md 0x3FF921FB54442D18 x)
  else
    let u := ma 0xBFE0000000000000 ax 0x3FE0000000000000
    let cv := binary64.hmul md 0x4000000000000000 (sqrt binary64 md u)
    let r3 := asinEval fused md u
    let r := ma (binary64.hmul md cv u) r3 cv
    if binary64.hlt x 0 then binary64.hsub md 0x400921FB54442D18 r else r

/-- l.84-107 `asin_small_impl<double>` -/
def asinSmall (fused : Bool) (md : Mode) (x : ℕ) : ℕ :=
  let ax := abs binary64 x
  if binary64.hlt ax 0x3F10000000000000 then
    binary64.hadd md x (binary64.hmul md (binary64.hmul md (binary64.hmul md x x) x) 0x3FC5555555555555)
  else
    let xsq := binary64.hmul md x x
    let r := asinEval fused md xsq
    binary64.hadd md x (binary64.hmul md (binary64.hmul md x xsq) r)

/-- l.111-137 `acos_impl<double>` -/
def acosDouble (fused : Bool) (md : Mode) (x : ℕ) : ℕ :=
  if FPBits.isNan binary64 x then x
  else if FPBits.isInf binary64 x then binary64.hadd md x (FPBits.quietNaN binary64 false 0)
  else
    let ax := abs binary64 x
    if binary64.hgt ax 0x3FF0000000000000 then binary64.hadd md x (FPBits.quietNaN binary64 false 0)
    else if binary64.heq ax 0x3FF0000000000000 then (if binary64.hlt x 0 then 0x400921FB54442D18 else 0)
    else acosKernel fused md x

/-- l.140-147 `asin_impl<double>` -/
def asinDouble (fused : Bool) (md : Mode) (x : ℕ) : ℕ :=
  if binary64.heq x 0 then x
  else if binary64.hle (abs binary64 x) 0x3FE0000000000000 then asinSmall fused md x
  else binary64.hsub md (binary64.hdiv md 0x400921FB54442D18 0x4000000000000000) (acosDouble fused md x)

/-- l.150-201 `atan_impl<double>` with the recursive call of l.184 replaced by `self` -/
def atanStep (fused : Bool) (md : Mode) (self : ℕ → ℕ) (x : ℕ) : ℕ :=
  if isnan binary64 x then x
  else if binary64.heq x 0 then x
  else
    let neg := binary64.hlt x 0
    let ax := abs binary64 x
    if isinf binary64 ax then
      (if neg then binary64.hdiv md (binary64.hneg 0x400921FB54442D18) 0x4000000000000000 else binary64.hdiv md 0x400921FB54442D18 0x4000000000000000)
    else if binary64.hgt ax 0x3FF0000000000000 then
      let piOver2 := binary64.hdiv md 0x400921FB54442D18 0x4000000000000000
      let recip := binary64.hdiv md 0x3FF0000000000000 ax
      let small :=
        if binary64.hlt recip 0x3F10000000000000 then
          let recipSq := binary64.hmul md recip recip
          binary64.hadd md recip (binary64.hmul md (binary64.hmul md recipSq recip) 0xBFD5555555555555)
        else self recip
      if neg then binary64.hadd md (binary64.hneg piOver2) small else binary64.hsub md piOver2 small
    else if binary64.hlt ax 0x3F10000000000000 then
      let axSq := binary64.hmul md ax ax
      let val := binary64.hadd md ax (binary64.hmul md (binary64.hmul md axSq ax) 0xBFD5555555555555)
      if neg then binary64.hneg val else val
    else
      let root := sqrt binary64 md (binary64.hadd md 0x3FF0000000000000 (binary64.hmul md ax ax))
      asinDouble fused md (if neg then binary64.hdiv md (binary64.hneg ax) root else binary64.hdiv md ax root)

/-- l.150-201 `atan_impl<double>`; the recursive call has an argument of at most 1 and does not recurse again (proved in `Props/InvTrig`: the innermost function is never
called), so two levels are the whole program -/
def atanDouble (fused : Bool) (md : Mode) (x : ℕ) : ℕ := atanStep fused md (atanStep fused md fun y => y) x

/-- l.204-269 `atan2_impl<double>` -/
def atan2Double (fused : Bool) (md : Mode) (y x : ℕ) : ℕ :=
  let pi := 0x400921FB54442D18
  if isnan binary64 y || isnan binary64 x then binary64.hadd md y x
  else if isinf binary64 x then
    if binary64.hgt x 0 then
      if isinf binary64 y then
        if binary64.hgt y 0 then binary64.hdiv md pi 0x4010000000000000
        else if binary64.hlt y 0 then binary64.hdiv md (binary64.hneg pi) 0x4010000000000000
        else y
      else if binary64.hgt y 0 then 0
      else if binary64.hlt y 0 then 0x8000000000000000
      else y
    else if isinf binary64 y then
      if binary64.hgt y 0 then binary64.hdiv md (binary64.hmul md 0x4008000000000000 pi) 0x4010000000000000
      else if binary64.hlt y 0 then binary64.hdiv md (binary64.hmul md (binary64.hneg 0x4008000000000000) pi) 0x4010000000000000
      else if FPBits.isNeg binary64 y then binary64.hneg pi else pi
    else if binary64.hgt y 0 then pi
    else if binary64.hlt y 0 then binary64.hneg pi
    else if FPBits.isNeg binary64 y then binary64.hneg pi else pi
  else if isinf binary64 y then
    let piOver2 := binary64.hdiv md pi 0x4000000000000000
    if FPBits.isNeg binary64 y then binary64.hneg piOver2 else piOver2
  else if binary64.heq x 0 then
    let piOver2 := binary64.hdiv md pi 0x4000000000000000
    if binary64.hgt y 0 then piOver2
    else if binary64.hlt y 0 then binary64.hneg piOver2
    else if FPBits.isNeg binary64 x then (if FPBits.isNeg binary64 y then binary64.hneg pi else pi)
    else y
  else
    let ratio := binary64.hdiv md y x
    let angle := atanDouble fused md ratio
    if binary64.hlt x 0 then (if binary64.hge y 0 then binary64.hadd md angle pi else binary64.hsub md angle pi)
    else angle

end Verif.CC
