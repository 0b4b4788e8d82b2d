import Verif.Model.EFT
import Verif.Model.Manip
import Verif.Model.Sqrt
import Verif.Model.IntUtil

/-!
# `pow` for double (internal/math/generic/func/power/pow_impl/pow_impl.hpp)

Everything of `pow_impl` except the logarithm/exponential kernel `pow_kernel` (l.417-751), which is an arbitrary function argument here
(`Model/PowKernel` has the kernel and the instance `powD`).
`none` stands for a call of the software fused multiply-add that does not return (never, by `C17_fma`) or a loop that does not end.
-/

namespace Verif
namespace CC
open Fmt

/-- l.61-69 `is_odd_integer`; `int32` arithmetic cannot overflow (at most `2047 + 52`) -/
def isOddInteger (x : ℕ) : Bool :=
  let xe := (x &&& FPBits.expMask binary64) >>> 52
  let lsb := countrZero 64 (x ||| FPBits.expMask binary64)
  decide (xe + lsb = 1023 + 52)

/-- l.71-79 `is_integer` -/
def isInteger (x : ℕ) : Bool :=
  let xe := (x &&& FPBits.expMask binary64) >>> 52
  let lsb := countrZero 64 (x ||| FPBits.expMask binary64)
  decide (xe + lsb ≥ 1023 + 52)

/-- literal `1.0` -/
def one64 : ℕ := 0x3FF0000000000000
/-- literal `2.0` -/
def two64 : ℕ := 0x4000000000000000
/-- literal `0.5` -/
def half64 : ℕ := 0x3FE0000000000000

/-- l.133-139 `mul` -/
def ddMul (m : Mode) (a b : Pair) : Option Pair := do
  let p ← twoProd m a.hi b.hi
  let t1 ← exactFma m a.hi b.lo p.lo
  let t2 ← exactFma m a.lo b.hi t1
  return exactAdd binary64 m p.hi t2

/-- l.160-173 `dd_sqrt` -/
def ddSqrt (m : Mode) (x : ℕ) : Option Pair := do
  let tiny := binary64.hlt x 0x0170000000000000 -- 0x1.0p-1000
  let mult := if tiny then 0x3CA0000000000000 else one64 -- 0x1.0p-53
  let x := if tiny then binary64.hmul m x 0x4690000000000000 else x -- 0x1.0p106
  let s0 := CC.sqrt binary64 m x
  let sq ← twoProd m s0 s0
  let e := binary64.hsub m (binary64.hsub m x sq.hi) sq.lo
  let corr := binary64.hdiv m e (binary64.hmul m two64 s0)
  return exactAdd binary64 m (binary64.hmul m s0 mult) (binary64.hmul m corr mult)

/-- l.191-197 `refine` -/
def reciprocalRefine (m : Mode) (d : Pair) (r : ℕ) : Option ℕ := do
  let pr ← twoProd m d.hi r
  let errHi := binary64.hsub m (binary64.hsub m one64 pr.hi) pr.lo
  let err ← exactFma m (binary64.hneg d.lo) r errHi
  exactFma m r err r

/-- l.176-200 `reciprocal` -/
def reciprocal (m : Mode) (p : Pair) : Option ℕ :=
  let d := exactAdd binary64 m p.hi p.lo
  let r0 := binary64.hdiv m one64 d.hi
  if binary64.heq r0 (binary64.zero false) || !FPBits.isFinite binary64 r0 then some r0
  else if binary64.heq d.lo (binary64.zero false) then some r0
  else do
    let r1 ← reciprocalRefine m d r0
    reciprocalRefine m d r1

/-- l.210-214 `ScaledPow`; `exp2` is a `long`, modelled by an unbounded integer (with `|e| ≤ 2048` it stays below `2^23`) -/
structure ScaledPow where
  mantissa : Pair
  exp2 : ℤ
deriving DecidableEq, Repr

/-- l.218-227 `scaled_pow_renormalize` -/
def scaledPowRenormalize (m : Mode) (v : ScaledPow) : ScaledPow :=
  let e : ℤ := (FPBits.biasedExp binary64 v.mantissa.hi : ℤ) - binary64.bias
  if e ≠ 0 then
    { mantissa := { hi := ldexp binary64 m v.mantissa.hi (-e), lo := ldexp binary64 m v.mantissa.lo (-e) }, exp2 := v.exp2 + e }
  else v

/-- l.232-237 `load_scaled` -/
def loadScaled (m : Mode) (base : Pair) : ScaledPow :=
  let e : ℤ := (FPBits.biasedExp binary64 base.hi : ℤ) - binary64.bias
  { mantissa := { hi := ldexp binary64 m base.hi (-e), lo := ldexp binary64 m base.lo (-e) }, exp2 := e }

/-- l.244-259, the loop of `ipow_scaled`; the first argument bounds the number of iterations (64 bits of `e`) -/
def ipowScaledLoop (m : Mode) : ℕ → ScaledPow → ScaledPow → ℕ → Option ScaledPow
  | 0, result, _, _ => some result
  | n + 1, result, factor, e =>
    if e > 0 then do
      let result ←
        if e &&& 1 ≠ 0 then do
          let mant ← ddMul m result.mantissa factor.mantissa
          pure (scaledPowRenormalize m { mantissa := mant, exp2 := result.exp2 + factor.exp2 })
        else pure result
      let e := e >>> 1
      let factor ←
        if e > 0 then do
          let mant ← ddMul m factor.mantissa factor.mantissa
          pure (scaledPowRenormalize m { mantissa := mant, exp2 := factor.exp2 + factor.exp2 })
        else pure factor
      ipowScaledLoop m n result factor e
    else some result

/-- l.241-261 `ipow_scaled(ScaledPow, e)` -/
def ipowScaled (m : Mode) (factor : ScaledPow) (e : ℕ) : Option ScaledPow :=
  ipowScaledLoop m 64 { mantissa := { hi := one64, lo := 0 }, exp2 := 0 } factor e

/-- conversion of a finite double to `std::int64_t` (truncation); the callers stay far below `2^63` -/
def truncInt (x : ℕ) : ℤ :=
  let q : ℕ := binary64.umag (binary64.mag x) / binary64.uscale
  if binary64.sgn x then -(q : ℤ) else q

/-- l.274-309 `reconstruct_scaled` -/
def reconstructScaled (m : Mode) (mant : Pair) (exp2 : ℤ) : ℕ :=
  if exp2 ≥ -1022 then ldexp binary64 m (binary64.hadd m mant.hi mant.lo) exp2
  else
    let neg := binary64.hlt mant.hi (binary64.zero false)
    let absHi := if neg then binary64.hneg mant.hi else mant.hi
    let absLo := if neg then binary64.hneg mant.lo else mant.lo
    let shift := exp2 + 1074
    let v := exactAdd binary64 m (ldexp binary64 m absHi shift) (ldexp binary64 m absLo shift)
    let units := truncInt v.hi
    let frac := binary64.hadd m (binary64.hsub m v.hi (binary64.ofInt m units)) v.lo
    let fneg := binary64.hlt frac (binary64.zero false)
    let units := if fneg then units - 1 else units
    let frac := if fneg then binary64.hadd m frac one64 else frac
    let inexact := !binary64.heq frac (binary64.zero false)
    let up : Bool :=
      match m with
      | .nearest => binary64.hgt frac half64 || (binary64.heq frac half64 && decide (units % 2 ≠ 0))
      | .up => !neg && inexact
      | .down => neg && inexact
      | .zero => false
    let units := if up then units + 1 else units
    let magnitude := binary64.hmul m (binary64.ofInt m units) 1 -- 0x1.0p-1074
    if neg then binary64.hneg magnitude else magnitude

/-- l.318-341 `exact_sign_of_sum`: the 256-bit accumulators `pos` and `neg` (`types::UInt<256>`) are natural numbers modulo `2^256` -/
def exactSignOfSum (terms : List ℕ) : ℤ :=
  let acc := terms.foldl (fun (a : ℕ × ℕ) t =>
    if FPBits.isZero binary64 t then a
    else
      let shift : ℤ := FPBits.explicitExponent binary64 t - 52 + 230
      if shift < 0 then a
      else
        let term := (FPBits.explicitMantissa binary64 t <<< shift.toNat) % 2 ^ 256
        if FPBits.isNeg binary64 t then (a.1, (a.2 + term) % 2 ^ 256) else ((a.1 + term) % 2 ^ 256, a.2)) (0, 0)
  if acc.1 > acc.2 then 1 else if acc.1 < acc.2 then -1 else 0

/-- l.348-367 `rsqrt_residual_sign` -/
def rsqrtResidualSign (m : Mode) (ch cl x : ℕ) : Option ℤ := do
  let k : ℤ := (FPBits.biasedExp binary64 ch : ℤ) - binary64.bias
  let ch := ldexp binary64 m ch (-k)
  let cl := ldexp binary64 m cl (-k)
  let x := ldexp binary64 m x (2 * k)
  let chh ← twoProd m ch ch
  let cross := binary64.hmul m two64 (binary64.hmul m ch cl)
  let clsq := binary64.hmul m cl cl
  let t0 ← twoProd m chh.hi x
  let t1 ← twoProd m chh.lo x
  let t2 ← twoProd m cross x
  let t3 ← twoProd m clsq x
  return exactSignOfSum [t0.hi, t0.lo, t1.hi, t1.lo, t2.hi, t2.lo, t3.hi, t3.lo, binary64.hneg one64]

/-- l.388 `do { r = next_down(r); } while (rsqrt_residual_sign(r, 0.0, x) > 0);`, `n` bounds the iterations -/
def rsqrtDown (m : Mode) (x : ℕ) : ℕ → ℕ → Option ℕ
  | 0, _ => none
  | n + 1, r => do
    let r := (r + 2 ^ 64 - 1) % 2 ^ 64
    let s ← rsqrtResidualSign m r 0 x
    if s > 0 then rsqrtDown m x n r else some r

/-- l.392 `while (rsqrt_residual_sign(next_up(r), 0.0, x) <= 0) { r = next_up(r); }` -/
def rsqrtUp (m : Mode) (x : ℕ) : ℕ → ℕ → Option ℕ
  | 0, _ => none
  | n + 1, r => do
    let s ← rsqrtResidualSign m ((r + 1) % 2 ^ 64) 0 x
    if s ≤ 0 then rsqrtUp m x n ((r + 1) % 2 ^ 64) else some r

/-- l.374-406 `cr_rsqrt`; the fuel of the two loops is larger than the number of bit patterns they can visit -/
def crRsqrt (m : Mode) (x : ℕ) : Option ℕ := do
  let r := binary64.hdiv m one64 (CC.sqrt binary64 m x)
  if !FPBits.isFinite binary64 r || FPBits.isZero binary64 r || FPBits.isSubnormal binary64 r then return r
  let s ← rsqrtResidualSign m r 0 x
  let r ← if s > 0 then rsqrtDown m x (2 ^ 64) r else if s < 0 then rsqrtUp m x (2 ^ 64) r else pure r
  let s ← rsqrtResidualSign m r 0 x
  if s = 0 then return r
  let rp := (r + 1) % 2 ^ 64
  if m = .up then return rp
  if m ≠ .nearest then return r
  let half := binary64.hmul m half64 (binary64.hsub m rp r)
  let sm ← rsqrtResidualSign m r half x
  if sm > 0 then return r
  if sm < 0 then return rp
  return (if r &&& 1 = 0 then r else rp)

/-- what `pow_impl` itself reports: the value assigned to `errno` and the exceptions raised by explicit calls (those raised by the hardware
operations and inside the helpers are not tracked) -/
inductive Errno | edom | erange
deriving DecidableEq, Repr

/-- effects of one call -/
structure PowEff where
  errno : Option Errno := none
  invalid : Bool := false
  divByZero : Bool := false
  overflow : Bool := false
  underflow : Bool := false
deriving DecidableEq, Repr

/-- l.829-869, the small-integer path; `none` inside means the path does not produce the result -/
def powIntPath (m : Mode) (base exp : ℕ) (sign : Bool) (eff : PowEff) : Option (Option (ℕ × PowEff)) :=
  if isInteger exp && binary64.hle (FPBits.abs binary64 exp) 0x4090000000000000 then -- 1024.0
    let expI := truncInt exp
    let mag := expI.natAbs
    if FPBits.isNormal binary64 base then do
      let sp ← ipowScaled m (loadScaled m { hi := base, lo := 0 }) mag
      let mant : Pair := if sign then { hi := binary64.hneg sp.mantissa.hi, lo := binary64.hneg sp.mantissa.lo } else sp.mantissa
      if expI < 0 then do
        let q ← reciprocal m mant
        let r := ldexp binary64 m q (-sp.exp2)
        if FPBits.isFinite binary64 r && !FPBits.isZero binary64 r && !FPBits.isSubnormal binary64 r then return some (r, eff) else return none
      else
        let r := reconstructScaled m mant sp.exp2
        if FPBits.isFinite binary64 r && !FPBits.isZero binary64 r then
          return some (r, if FPBits.isSubnormal binary64 r then { eff with errno := some .erange, underflow := true } else eff)
        else return none
    else some none
  else some none

/-- l.879-912, the half-integer path -/
def powHalfPath (m : Mode) (base exp : ℕ) (eff : PowEff) : Option (Option (ℕ × PowEff)) :=
  let twoExp := binary64.hmul m exp two64
  if isInteger twoExp && !isInteger exp && binary64.hle (FPBits.abs binary64 twoExp) 0x40A0000000000000 then -- 2048.0
    if binary64.heq exp half64 then some (some (CC.sqrt binary64 m base, eff))
    else if binary64.heq exp 0xBFE0000000000000 then do -- -0.5
      let r ← crRsqrt m base
      return some (r, eff)
    else
      let mI := truncInt twoExp
      let mag := mI.natAbs
      do
        let sq ← ddSqrt m base
        let sp ← ipowScaled m (loadScaled m sq) mag
        if mI < 0 then do
          let q ← reciprocal m sp.mantissa
          let r := ldexp binary64 m q (-sp.exp2)
          if FPBits.isFinite binary64 r && !FPBits.isZero binary64 r && !FPBits.isSubnormal binary64 r then return some (r, eff) else return none
        else
          let r := reconstructScaled m sp.mantissa sp.exp2
          if FPBits.isFinite binary64 r && !FPBits.isZero binary64 r then
            return some (r, if FPBits.isSubnormal binary64 r then { eff with errno := some .erange, underflow := true } else eff)
          else return none
  else some none

/-- l.753-921 `pow_impl`; `kernel base exp sign` is `pow_kernel` (l.566-751), an arbitrary function.  The Windows variant (l.764: no `FE_INVALID`
for signaling NaN) is not modelled. -/
def powImpl (kernel : ℕ → ℕ → Bool → Option (ℕ × PowEff)) (m : Mode) (base exp : ℕ) : Option (ℕ × PowEff) :=
  let e0 : PowEff := { invalid := FPBits.isSignalingNan binary64 base || FPBits.isSignalingNan binary64 exp }
  if FPBits.isZero binary64 exp then some (one64, e0)
  else if base = one64 then some (one64, e0)
  else if FPBits.isNan binary64 base || FPBits.isNan binary64 exp then some (FPBits.quietNaN binary64 false 0, e0)
  else if FPBits.isZero binary64 base then
    let neg := FPBits.isNeg binary64 base && isOddInteger exp
    if binary64.hlt exp (binary64.zero false) then
      some (FPBits.inf binary64 neg, { e0 with errno := some .edom, divByZero := true })
    else some (binary64.zero neg, e0)
  else if FPBits.isInf binary64 base then
    let neg := FPBits.isNeg binary64 base && isOddInteger exp
    if binary64.hlt exp (binary64.zero false) then some (binary64.zero neg, e0) else some (FPBits.inf binary64 neg, e0)
  else if FPBits.isInf binary64 exp then
    let a := FPBits.abs binary64 base
    if a = one64 then some (one64, e0)
    else if FPBits.isNeg binary64 exp then some (if a < one64 then binary64.inf false else binary64.zero false, e0)
    else some (if a < one64 then binary64.zero false else binary64.inf false, e0)
  else if binary64.hlt base (binary64.zero false) && !isInteger exp then
    some (FPBits.quietNaN binary64 false 0, { e0 with errno := some .edom, invalid := true })
  else
    let neg := binary64.hlt base (binary64.zero false)
    let sign := neg && isOddInteger exp
    let base := if neg then FPBits.abs binary64 base else base
    match powIntPath m base exp sign e0 with
    | none => none
    | some (some r) => some r
    | some none =>
      match powHalfPath m base exp e0 with
      | none => none
      | some (some r) => some r
      | some none =>
        let exp :=
          if FPBits.abs binary64 exp > 0x43d74910d52d3052 then
            (if FPBits.isNeg binary64 exp then 0xC630000000000000 else 0x4630000000000000) -- ∓0x1.0p100
          else exp
        kernel base exp sign

end CC
end Verif
