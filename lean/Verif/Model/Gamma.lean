import Verif.Model.Pow
import Verif.Model.Trig
import Verif.Model.Nearest

/-!
# tgamma: `math/misc/impl/gamma_double_impl.hpp`, `gamma_float_impl.hpp` and `gamma_data.hpp`

Raising floating-point exceptions and setting `errno` are not modelled.
-/

namespace Verif.CC
open Fmt

/-- gamma_data.hpp l.23-24 `k_gamma_coeffs` -/
def gammaC : List ℕ := [0x3FFC9A76B7DE6F60, 0x3FF8F2754874FE83, 0x3FF0D11CBA0C229F, 0x3FDE1F47C012064D,
  0x3FC828B9F2AFB74F, 0x3FAE1CC49D830795, 0x3F92C9AF3E686836, 0x3F71BF60C7E311F6]
/-- gamma_data.hpp l.26 `k_gamma_base` = `0x1.7p+1` = 2.875 -/
def gammaBase : ℕ := 0x4007000000000000
/-- gamma_data.hpp l.28 `k_tiny_a` = `0x1.fa658c23b1578p-1` -/
def gammaTinyA : ℕ := 0x3FEFA658C23B1578
/-- gamma_data.hpp l.29 `k_tiny_b` = `0x1.d0a118f324b63p-1` -/
def gammaTinyB : ℕ := 0x3FED0A118F324B63
/-- gamma_data.hpp l.30 `k_tiny_c` = `0x1.2788cfc6fb619p-1` -/
def gammaTinyC : ℕ := 0x3FE2788CFC6FB619

/-- gamma_double_impl.hpp l.45-56 `gamma_polynomial` -/
def gammaPoly (fused : Bool) (md : Mode) (d : ℕ) : ℕ :=
  let ma := multiplyAdd binary64 fused md
  let c := fun i => gammaC.getD i 0
  let d2 := binary64.hmul md d d
  let d4 := binary64.hmul md d2 d2
  let p01 := ma d (c 1) (c 0)
  let p23 := ma d (c 3) (c 2)
  let p45 := ma d (c 5) (c 4)
  let p67 := ma d (c 7) (c 6)
  let p03 := ma d2 p23 p01
  let p47 := ma d2 p67 p45
  ma d4 p47 p03

/-- gamma_double_impl.hpp l.73-77: the loop of `gamma_reduce`, `n` iterations -/
def gammaLoop (md : Mode) (step : ℕ) : ℕ → ℕ → ℕ → ℕ
  | 0, _, w => w
  | n + 1, z, w =>
    let z := binary64.hsub md z step
    gammaLoop md step n z (binary64.hmul md w z)

/-- gamma_double_impl.hpp l.58-83 `gamma_reduce`: the value and `w_out`.  The cast to `int32` is undefined (`none`) out of range. -/
def gammaReduce (ce fused : Bool) (md : Mode) (xd : ℕ) : Option (ℕ × ℕ) :=
  let m := binary64.hsub md xd gammaBase
  let i := nearestInteger binary64 ce md m
  let step := if FPBits.isNeg binary64 i then 0xBFF0000000000000 else 0x3FF0000000000000
  (toInt32 binary64 (if binary64.hlt i 0 then binary64.hneg i else i)).map fun jm =>
    let d := binary64.hsub md m i
    let f := gammaPoly fused md d
    let w :=
      if jm ≠ 0 then
        let z := binary64.hsub md xd (binary64.hadd md 0x3FE0000000000000 (binary64.hmul md step 0x3FE0000000000000))
        gammaLoop md step (jm - 1).toNat z z
      else 0x3FF0000000000000
    let w := if binary64.hle i 0xBFE0000000000000 then binary64.hdiv md 0x3FF0000000000000 w else w
    (f, w)

/-- gamma_double_impl.hpp l.85-90 `positive_factorial`: after `n` iterations, the next of which multiplies by `n + 2` -/
def factLoop (md : Mode) : ℕ → ℕ
  | 0 => 0x3FF0000000000000
  | n + 1 => binary64.hmul md (factLoop md n) (binary64.ofInt md ((n : ℤ) + 2))

/-- gamma_double_impl.hpp l.85-90 `positive_factorial` -/
def positiveFactorial (md : Mode) (k : ℤ) : ℕ := factLoop md (k - 2).toNat

/-- gamma_double_impl.hpp l.94-167 `gamma_double_impl`; `none` is undefined behaviour (conversion to `int32` out of range).  `detail::is_integer`
(l.36-43) is the same function as the one of `pow`. -/
def gammaDouble (ce fused : Bool) (md : Mode) (x : ℕ) : Option ℕ :=
  if FPBits.isNan binary64 x || FPBits.isInf binary64 x then
    if FPBits.isInf binary64 x && FPBits.isNeg binary64 x then some (FPBits.quietNaN binary64 false 0)
    else if FPBits.isSignalingNan binary64 x then some (FPBits.quietNaN binary64 false 0)
    else some x
  else if FPBits.isZero binary64 x then some (FPBits.inf binary64 (FPBits.isNeg binary64 x))
  else if binary64.hle x 0x3CA0000000000000 && binary64.hge x 0xBCA0000000000000 then
    let d := binary64.hsub md (binary64.hmul md (binary64.hsub md gammaTinyA (binary64.hmul md gammaTinyB x)) x) gammaTinyC
    some (binary64.hadd md (binary64.hdiv md 0x3FF0000000000000 x) d)
  else if !FPBits.isNeg binary64 x && binary64.hge x 0x4065740B36960EB4 then some (FPBits.inf binary64 false)
  else if isInteger x then
    match toInt32 binary64 (floor binary64 md x) with
    | none => none
    | some k =>
      if FPBits.isNeg binary64 x then some (FPBits.quietNaN binary64 false 0)
      else if 1 ≤ k ∧ k ≤ 170 then some (positiveFactorial md k)
      else (gammaReduce ce fused md x).map fun p => binary64.hmul md p.1 p.2
  else (gammaReduce ce fused md x).map fun p => binary64.hmul md p.1 p.2

/-- gamma_float_impl.hpp l.28-75 `gamma_float_impl`; 34.8F is `0x420B3333` -/
def gammaFloat (ce fused : Bool) (md : Mode) (x : ℕ) : Option ℕ :=
  if FPBits.isNan binary32 x || FPBits.isInf binary32 x then
    if FPBits.isInf binary32 x && FPBits.isNeg binary32 x then some (FPBits.quietNaN binary32 false 0)
    else if FPBits.isSignalingNan binary32 x then some (FPBits.quietNaN binary32 false 0)
    else some x
  else if FPBits.isZero binary32 x then some (FPBits.inf binary32 (FPBits.isNeg binary32 x))
  else if !FPBits.isNeg binary32 x && binary32.hge x 0x420B3333 then some (FPBits.inf binary32 false)
  else
    let xd := binary64.hcvt binary32 md x
    match gammaDouble ce fused md xd with
    | none => none
    | some result =>
      let r := binary32.hcvt binary64 md result
      if !FPBits.isNeg binary32 x && FPBits.isInf binary64 result then some (FPBits.maxNormal binary32 false)
      else if FPBits.isNeg binary32 x && !binary64.heq result 0 && FPBits.isZero binary32 r then
        (toInt32 binary64 (floor binary64 md xd)).map fun k => if k % 2 = 0 then 0 else 0x80000000
      else some r

end Verif.CC
