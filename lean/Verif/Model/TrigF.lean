import Verif.Model.Trig

/-!
# Model of float sine, cosine and tangent

Source: `math/trig/impl/sincos_float_impl.hpp`, `math/trig/impl/sincos_float_data.hpp`, `internal/math/generic/func/trig/tan_gen.hpp`.
`errno` and exception flags are left out.
-/

namespace Verif.CC
open Fmt

/-- sincos_float_data.hpp l.20-23 `SIN_K_PI_OVER_8` -/
def sinKPi8f : List ℕ := [
  0x00000000, 0x3EC3EF15, 0x3F3504F3, 0x3F6C835E, 0x3F800000, 0x3F6C835E, 0x3F3504F3, 0x3EC3EF15,
  0x00000000, 0xBEC3EF15, 0xBF3504F3, 0xBF6C835E, 0xBF800000, 0xBF6C835E, 0xBF3504F3, 0xBEC3EF15]

/-- sincos_float_data.hpp l.27 `MPI[0]` = `-0x1.921f8p-2f` -/
def mpif0 : ℕ := 0xBEC90FC0
/-- sincos_float_data.hpp l.27 `MPI[1]` = `-0x1.aa22p-21f` -/
def mpif1 : ℕ := 0xB5551100
/-- sincos_float_data.hpp l.27 `MPI[2]` = `-0x1.68c234p-41f` -/
def mpif2 : ℕ := 0xAB34611A
/-- sincos_float_data.hpp l.29 `ONE_OVER_PI` = `0x1.45f306p+1f` -/
def oneOverPif : ℕ := 0x4022F983

/-- sincos_float_impl.hpp l.35-44 `sincosf_range_reduction_small`: the returned `unsigned` and `u`; `ce` is constant evaluation -/
def sincosfSmall (ce fused : Bool) (md : Mode) (x : ℕ) : Option (ℕ × ℕ) :=
  let prodHi := binary32.hmul md x oneOverPif
  let k := nearestInteger binary32 ce md prodHi
  let yHi := multiplyAdd binary32 fused md k mpif0 x
  let u := multiplyAdd binary32 fused md k mpif1 yHi
  let u := multiplyAdd binary32 fused md k mpif2 u
  (toInt32 binary32 k).map fun n => ((n % 2 ^ 32).toNat, u)

/-- sincos_float_impl.hpp l.82-98: the polynomials and the recombination; `k` and `y` are the reduced argument -/
def sincosfPoly (isSin fused : Bool) (md : Mode) (k y : ℕ) : ℕ :=
  let ma := multiplyAdd binary32 fused md
  let sinK := sinKPi8f.getD (k &&& 15) 0
  let cosK := sinKPi8f.getD (((k + 4) % 2 ^ 32) &&& 15) 0
  let ySq := binary32.hmul md y y
  let p1 := ma ySq 0x3C088889 0xBE2AAAAB
  let q1 := ma ySq 0x3D2A5C5F 0xBEFFFFE2
  let y3 := binary32.hmul md ySq y
  let c1 := ma ySq q1 (pow2 binary32 false 0)
  let s1 := ma y3 p1 y
  if isSin then ma cosK s1 (binary32.hmul md sinK c1)
  else ma cosK c1 (binary32.hmul md (binary32.hneg sinK) s1)

/-- sincos_float_impl.hpp l.46-99 `sincosf_eval` (`none` is undefined behaviour) -/
def sincosfEval (isSin ce fused : Bool) (md : Mode) (x : ℕ) : Option ℕ :=
  let xAbs := x &&& 0x7fffffff
  if xAbs = 0 then some (if isSin then x else pow2 binary32 false 0)
  else if xAbs < 0x48800000 then
    (sincosfSmall ce fused md x).map fun r => sincosfPoly isSin fused md r.1 r.2
  else if xAbs ≥ 0x7f800000 then
    if FPBits.isSignalingNan binary32 x then some (FPBits.quietNaN binary32 false 0)
    else some (binary32.hadd md x (FPBits.quietNaN binary32 false 0))
  else
    let r := payneHanek fused md (binary64.hcvt binary32 md x)
    some (sincosfPoly isSin fused md r.1 (binary32.hcvt binary64 md r.2))

/-- tan_gen.hpp l.21-31 `tan_gen<float>` -/
def tanfGen (ce fused : Bool) (md : Mode) (x : ℕ) : Option ℕ := do
  let s ← sincosfEval true ce fused md x
  let c ← sincosfEval false ce fused md x
  if binary32.heq c (binary32.zero false) then some binary32.qnan else some (binary32.hdiv md s c)

end Verif.CC
