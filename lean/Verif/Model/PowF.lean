import Verif.Model.PowKernel
import Verif.Model.Exp

/-!
# `pow` for float (internal/math/generic/func/power/pow_impl/powf_impl.hpp) and `exp10` (internal/support/helpers/exp10.hpp)

Line numbers without a file name refer to powf_impl.hpp.  `ce` is constant evaluation, `fused` is `target_cpu_has_fma`.  `none` stands for a
call of the software fused multiply-add that does not return (never, by `C17_fma`), an index outside a table or a conversion whose value does not
fit.  The effects are those raised by powf_impl itself; the effects of the functions it calls (`sqrt_gen`, `exp2_float`, `exp10_float`) and the
flags of the arithmetic instructions are not recorded.
-/

namespace Verif
namespace CC
open Fmt

/-- support/common_math_constants.hpp l.84-95 `R` -/
def powfR : List ℕ := [
  0x3f800000, 0x3f7e0000, 0x3f7c0000, 0x3f7a0000, 0x3f780000, 0x3f760000, 0x3f740000, 0x3f720000, 0x3f700000, 0x3f6f0000,
  0x3f6d0000, 0x3f6b0000, 0x3f6a0000, 0x3f680000, 0x3f660000, 0x3f650000, 0x3f630000, 0x3f620000, 0x3f600000, 0x3f5f0000,
  0x3f5d0000, 0x3f5c0000, 0x3f5a0000, 0x3f590000, 0x3f570000, 0x3f560000, 0x3f540000, 0x3f530000, 0x3f520000, 0x3f500000,
  0x3f4f0000, 0x3f4e0000, 0x3f4c0000, 0x3f4b0000, 0x3f4a0000, 0x3f490000, 0x3f480000, 0x3f460000, 0x3f450000, 0x3f440000,
  0x3f430000, 0x3f420000, 0x3f400000, 0x3f3f0000, 0x3f3e0000, 0x3f3d0000, 0x3f3c0000, 0x3f3b0000, 0x3f3a0000, 0x3f390000,
  0x3f380000, 0x3f370000, 0x3f360000, 0x3f350000, 0x3f340000, 0x3f330000, 0x3f320000, 0x3f310000, 0x3f300000, 0x3f2f0000,
  0x3f2e0000, 0x3f2d0000, 0x3f2c0000, 0x3f2b0000, 0x3f2a0000, 0x3f2a0000, 0x3f290000, 0x3f280000, 0x3f270000, 0x3f260000,
  0x3f250000, 0x3f250000, 0x3f240000, 0x3f230000, 0x3f220000, 0x3f210000, 0x3f200000, 0x3f200000, 0x3f1f0000, 0x3f1e0000,
  0x3f1d0000, 0x3f1d0000, 0x3f1c0000, 0x3f1b0000, 0x3f1a0000, 0x3f1a0000, 0x3f190000, 0x3f180000, 0x3f180000, 0x3f170000,
  0x3f160000, 0x3f160000, 0x3f150000, 0x3f140000, 0x3f140000, 0x3f130000, 0x3f120000, 0x3f120000, 0x3f110000, 0x3f100000,
  0x3f100000, 0x3f0f0000, 0x3f0e0000, 0x3f0e0000, 0x3f0d0000, 0x3f0d0000, 0x3f0c0000, 0x3f0b0000, 0x3f0b0000, 0x3f0a0000,
  0x3f0a0000, 0x3f090000, 0x3f080000, 0x3f080000, 0x3f070000, 0x3f070000, 0x3f060000, 0x3f060000, 0x3f050000, 0x3f050000,
  0x3f040000, 0x3f040000, 0x3f030000, 0x3f030000, 0x3f020000, 0x3f020000, 0x3f010000, 0x3f000000]

/-- support/common_math_constants.hpp l.153-176 `LOG2_R` -/
def powfLog2R : List ℕ := [
  0x0000000000000000, 0x3f872c7ba20f7327, 0x3f9743ee861f3556, 0x3fa184b8e4c56af8, 0x3fa77394c9d958d5, 0x3fad6ebd1f1febfe,
  0x3fb1bb32a600549d, 0x3fb4c560fe68af88, 0x3fb7d60496cfbb4c, 0x3fb960caf9abb7ca, 0x3fbc7b528b70f1c5, 0x3fbf9c95dc1d1165,
  0x3fc097e38ce60649, 0x3fc22dadc2ab3497, 0x3fc3c6fb650cde51, 0x3fc494f863b8df35, 0x3fc633a8bf437ce1, 0x3fc7046031c79f85,
  0x3fc8a8980abfbd32, 0x3fc97c1cb13c7ec1, 0x3fcb2602497d5346, 0x3fcbfc67a7fff4cc, 0x3fcdac22d3e441d3, 0x3fce857d3d361368,
  0x3fd01d9bbcfa61d4, 0x3fd08bce0d95fa38, 0x3fd169c05363f158, 0x3fd1d982c9d52708, 0x3fd249cd2b13cd6c, 0x3fd32bfee370ee68,
  0x3fd39de8e1559f6f, 0x3fd4106017c3eca3, 0x3fd4f6fbb2cec598, 0x3fd56b22e6b578e5, 0x3fd5dfdcf1eeae0e, 0x3fd6552b49986277,
  0x3fd6cb0f6865c8ea, 0x3fd7b89f02cf2aad, 0x3fd8304d90c11fd3, 0x3fd8a8980abfbd32, 0x3fd921800924dd3b, 0x3fd99b072a96c6b2,
  0x3fda8ff971810a5e, 0x3fdb0b67f4f46810, 0x3fdb877c57b1b070, 0x3fdc043859e2fdb3, 0x3fdc819dc2d45fe4, 0x3fdcffae611ad12b,
  0x3fdd7e6c0abc3579, 0x3fddfdd89d586e2b, 0x3fde7df5fe538ab3, 0x3fdefec61b011f85, 0x3fdf804ae8d0cd02, 0x3fe0014332be0033,
  0x3fe042bd4b9a7c99, 0x3fe08494c66b8ef0, 0x3fe0c6caaf0c5597, 0x3fe1096015dee4da, 0x3fe14c560fe68af9, 0x3fe18fadb6e2d3c2,
  0x3fe1d368296b5255, 0x3fe217868b0c37e8, 0x3fe25c0a0463beb0, 0x3fe2a0f3c340705c, 0x3fe2e644fac04fd8, 0x3fe2e644fac04fd8,
  0x3fe32bfee370ee68, 0x3fe37222bb70747c, 0x3fe3b8b1c68fa6ed, 0x3fe3ffad4e74f1d6, 0x3fe44716a2c08262, 0x3fe44716a2c08262,
  0x3fe48eef19317991, 0x3fe4d7380dcc422d, 0x3fe51ff2e30214bc, 0x3fe5692101d9b4a6, 0x3fe5b2c3da19723b, 0x3fe5b2c3da19723b,
  0x3fe5fcdce2727ddb, 0x3fe6476d98ad990a, 0x3fe6927781d932a8, 0x3fe6927781d932a8, 0x3fe6ddfc2a78fc63, 0x3fe729fd26b707c8,
  0x3fe7767c12967a45, 0x3fe7767c12967a45, 0x3fe7c37a9227e7fb, 0x3fe810fa51bf65fd, 0x3fe810fa51bf65fd, 0x3fe85efd062c656d,
  0x3fe8ad846cf369a4, 0x3fe8ad846cf369a4, 0x3fe8fc924c89ac84, 0x3fe94c287492c4db, 0x3fe94c287492c4db, 0x3fe99c48be2063c8,
  0x3fe9ecf50bf43f13, 0x3fe9ecf50bf43f13, 0x3fea3e2f4ac43f60, 0x3fea8ff971810a5e, 0x3fea8ff971810a5e, 0x3feae255819f022d,
  0x3feb35458761d479, 0x3feb35458761d479, 0x3feb88cb9a2ab521, 0x3feb88cb9a2ab521, 0x3febdce9dcc96187, 0x3fec31a27dd00b4a,
  0x3fec31a27dd00b4a, 0x3fec86f7b7ea4a89, 0x3fec86f7b7ea4a89, 0x3fecdcebd2373995, 0x3fed338120a6dd9d, 0x3fed338120a6dd9d,
  0x3fed8aba045b01c8, 0x3fed8aba045b01c8, 0x3fede298ec0bac0d, 0x3fede298ec0bac0d, 0x3fee3b20546f554a, 0x3fee3b20546f554a,
  0x3fee9452c8a71028, 0x3fee9452c8a71028, 0x3feeee32e2aeccbf, 0x3feeee32e2aeccbf, 0x3fef48c34bd1e96f, 0x3fef48c34bd1e96f,
  0x3fefa406bd2443df, 0x3ff0000000000000]

/-- pow_impl/powf_impl.hpp l.378-379 `COEFFS` -/
def powfLogC : List ℕ := [
  0x3ff71547652b82fe, 0xbfe71547652b7a07, 0x3fdec709dc458db1, 0xbfd715479c2266c9,
  0x3fd2776ae1ddf8f0, 0xbfce7b2178870157]

/-- literal `1.0F` -/
def one32 : ℕ := 0x3f800000

/-- l.45-53 `is_odd_integer` -/
def isOddIntegerF (x : ℕ) : Bool :=
  let xe := (x &&& FPBits.expMask binary32) >>> 23
  let lsb := countrZero 32 (x ||| FPBits.expMask binary32)
  decide (xe + lsb = 127 + 23)

/-- l.55-63 `is_integer` -/
def isIntegerF (x : ℕ) : Bool :=
  let xe := (x &&& FPBits.expMask binary32) >>> 23
  let lsb := countrZero 32 (x ||| FPBits.expMask binary32)
  decide (xe + lsb ≥ 127 + 23)

/-- `static_cast<std::int64_t>` of a double; undefined (`none`) unless the truncated value fits -/
def castInt64 (x : ℕ) : Option ℤ :=
  if binary64.mag x < binary64.infMag ∧ -(2 : ℤ) ^ 63 ≤ truncInt x ∧ truncInt x < (2 : ℤ) ^ 63 then some (truncInt x) else none

/-- `if (larger_exponent(a.hi, b.hi)) add(a, b) else add(b, a)`, l.112-113 and l.120 -/
def ddOrdered (m : Mode) (a b : Pair) : Pair := if largerExponent a.hi b.hi then ddAdd binary64 m a b else ddAdd binary64 m b a

/-- l.82-113: `log2(1 + dx)` plus the lower parts of `-log2(r)` as a pair -/
def powfLogDD (ce fused : Bool) (m : Mode) (idx dx : ℕ) : Option Pair := do
  let idx2 ← castInt32 (nearestInteger binary64 ce m (multiplyAdd binary64 fused m dx 0x40D0000000000000 0x4050000000000000)) -- 0x1.0p14, 0x1.0p6
  if idx2 < 0 then none
  let r2 ← powR2[idx2.toNat]?
  let dx2 := multiplyAdd binary64 fused m (binary64.hadd m one64 dx) r2 (binary64.hneg one64)
  let p ← ddPoly m { hi := dx2, lo := 0 } powDDLogC
  let log2Lo ← quickMultD m dx2 p
  let lrMid ← powLogMid[idx]?
  let lrLo ← powLogLo[idx]?
  let r2Hi ← powLog2Big[idx2.toNat]?
  let r2Lo ← powLog2Small[idx2.toNat]?
  return ddOrdered m (ddAdd binary64 m { hi := r2Hi, lo := r2Lo } { hi := lrMid, lo := lrLo }) log2Lo

/-- l.146-156: the sum of the pair rounded to odd at the 28 lowest bits (the bits are wrapped as `uint64`) -/
def powfRoundOdd (m : Mode) (rr : Pair) : ℕ :=
  let r := exactAdd binary64 m rr.hi rr.lo
  if (r.hi &&& 0xfffffff) = 0 ∧ !binary64.heq r.lo 0 then
    if FPBits.isNeg binary64 r.hi = FPBits.isNeg binary64 r.lo then (r.hi + 1) % 2 ^ 64
    else if (r.hi &&& FPBits.fracMask binary64) > 0 then r.hi - 1
    else r.hi
  else r.hi

/-- l.71-159 `powf_double_double`.  The coefficients of l.91-95 and l.121-132 are those of the double kernel. -/
def powfDoubleDouble (ce fused : Bool) (m : Mode) (idx dx y6 lo6Hi : ℕ) (ehm : Pair) : Option ℕ := do
  let log2x ← powfLogDD ce fused m idx dx
  let prod ← quickMultD m y6 log2x
  let lo6 := ddOrdered m prod { hi := lo6Hi, lo := 0 }
  let pp ← ddPoly m lo6 powDDExpC
  let rr ← quickMult m ehm pp
  return powfRoundOdd m rr

/-- l.358-368: `dx = r * m_x - 1` -/
def powfDx (fused : Bool) (m : Mode) (idx mx : ℕ) : Option ℕ := do
  if fused then
    let r ← powfR[idx]?
    return binary64.hcvt binary32 m (multiplyAdd binary32 fused m mx r (binary32.hneg one32))
  else
    let r ← powRD[idx]?
    return multiplyAdd binary64 fused m (binary64.hcvt binary32 m mx) r (binary64.hneg one64)

/-- l.378-386: the polynomial `p` with `dx * p ~ log2(1 + dx)` -/
def powfLogPoly (fused : Bool) (m : Mode) (dx : ℕ) : ℕ :=
  let c := fun i => powfLogC.getD i 0
  let ma := multiplyAdd binary64 fused m
  let dx2 := binary64.hmul m dx dx
  ma dx2 (ma dx2 (ma dx (c 5) (c 4)) (ma dx (c 3) (c 2))) (ma dx (c 1) (c 0))

/-- l.454-462: the polynomial `pp ~ 2^(lo6/64)`, whose coefficients are those of the double kernel -/
def powfExpPoly (fused : Bool) (m : Mode) (lo6 : ℕ) : ℕ :=
  let c := fun i => powExpC.getD i 0
  let ma := multiplyAdd binary64 fused m
  let sqr := binary64.hmul m lo6 lo6
  ma sqr (ma sqr (ma lo6 (c 5) (c 4)) (ma lo6 (c 3) (c 2))) (ma lo6 (c 1) (c 0))

/-- l.465-499: the accuracy test and the selection of the result -/
def powfFinish (fused : Bool) (m : Mode) (r : ℕ) (dd : Option ℕ) : Option (ℕ × PowEff) :=
  let tol : ℕ := if fused then 64 else 128
  let upper := binary32.hcvt binary64 m ((r + tol) % 2 ^ 64)
  let lower := binary32.hcvt binary64 m ((r + (2 ^ 64 - tol)) % 2 ^ 64)
  if binary32.heq upper lower then
    let eff : PowEff :=
      if (upper &&& FPBits.fracMask binary32) = 0 then
        if FPBits.isInf binary32 upper then { errno := some .erange, overflow := true }
        else if binary32.heq upper 0 then { errno := some .erange, underflow := true }
        else {}
      else {}
    some (upper, eff)
  else
    match dd with
    | none => none
    | some d => some (binary32.hcvt binary64 m d, {})

/-- l.343-499: the kernel of `powf_impl` for a positive normal `x`; `ex0` is `ex` before the exponent field of `x` is added -/
def powfKernel (ce fused : Bool) (m : Mode) (x y : ℕ) (ex0 : ℤ) (sign : Bool) : Option (ℕ × PowEff) := do
  let ex := binary64.ofInt m (ex0 + ((x >>> 23 : ℕ) : ℤ))
  let mant := x &&& FPBits.fracMask binary32
  let idx := mant >>> 16
  let dx ← powfDx fused m idx (mant ||| one32)
  let p := powfLogPoly fused m dx
  let ma := multiplyAdd binary64 fused m
  let lr ← powfLog2R[idx]?
  let lrHi ← powLogHi[idx]?
  let lrMid ← powLogMid[idx]?
  let s := ma dx p (binary64.hadd m lr ex)
  let y6 := binary64.hcvt binary32 m (binary32.hmul m y 0x42800000) -- 0x1.0p6F
  let hm := nearestInteger binary64 ce m (binary64.hmul m s y6)
  let lo6Hi := ma y6 (binary64.hadd m ex lrHi) (binary64.hneg hm)
  let lo6 := ma y6 (ma dx p lrMid) lo6Hi
  let hmI ← castInt64 hm
  let hmI : ℤ := if hmI > 2 ^ 15 then 2 ^ 15 else if hmI < -2 ^ 15 then -2 ^ 15 else hmI
  let eh ← powExpHm sign hmI
  let el ← powExpHm false hmI -- the low part is taken without the sign
  let r := binary64.hmul m (powfExpPoly fused m lo6) eh.hi
  powfFinish fused m r (powfDoubleDouble ce fused m idx dx y6 lo6Hi { hi := eh.hi, lo := el.lo })

/-- exp10.hpp l.26 `LOG2_10 = log2_gen(10.0)`, a constant; the value is that of the model of `log2` (`exp10_log2_10` in Props/PowF) -/
def log2Of10 : ℕ := 0x400A934F0979A371

/-- exp10.hpp l.77-78 `exp10_double_impl` -/
def exp10Double (m : Mode) (x : ℕ) : ℕ := exp2Double m (binary64.hmul m x log2Of10)

/-- exp10.hpp l.83-95 `exp10_float_impl` -/
def exp10Float (m : Mode) (x : ℕ) : ℕ :=
  let t := binary64.hmul m (binary64.hcvt binary32 m x) log2Of10
  if binary64.hge t 0x4060000000000000 || binary64.hlt t 0xC062A00000000000 then exp2Float m (binary32.hcvt binary64 m t) -- 128.0, -149.0
  else binary32.hcvt binary64 m (exp2Double m t)

/-- l.225 the loop of the small integer powers: `n` multiplications by `x` -/
def powfLoop (m : Mode) (x : ℕ) : ℕ → ℕ → ℕ
  | 0, r => r
  | n + 1, r => powfLoop m x n (binary64.hmul m r x)

/-- l.212-228: small integer powers of floats with few significant bits; the 32-bit integers stay small -/
def powfInt (m : Mode) (x y : ℕ) : Option ℕ :=
  if isIntegerF y && decide (y > 0x40000000) && decide (y ≤ 0x41c00000) then
    let a := FPBits.abs binary32 x
    let msb : ℤ := if a = 0 then 30 else countlZero 32 a
    let msb : ℤ := if msb > 8 then msb else 8
    let lsb : ℤ := if a = 0 then 0 else countrZero 32 a
    let lsb : ℤ := if lsb > 23 then 23 else lsb
    let extra := 30 - lsb - msb
    let iter := truncInt (binary64.hcvt binary32 m y)
    if extra * iter ≤ 25 then
      let xd := binary64.hcvt binary32 m x
      some (binary32.hcvt binary64 m (powfLoop m xd (iter.toNat - 1) xd))
    else none
  else none

/-- l.161-240, first part of `handle_exceptional_cases`: the results decided by `y` -/
def powfYCase (m : Mode) (x y : ℕ) : Option (ℕ × PowEff) :=
  let a := FPBits.abs binary32 x
  let b := FPBits.abs binary32 y
  if ¬ (b &&& 0x7ffff = 0 ∨ b > 0x4f170000) then none
  else if binary32.heq y 0 then some (one32, {})
  else if b = 0x7f800000 then
    if a > 0x7f800000 then some (x, {})
    else if a = one32 then some (one32, {})
    else if binary32.heq x 0 ∧ y = 0xff800000 then some (FPBits.inf binary32 false, { errno := some .edom, divByZero := true })
    else some (if decide (a < one32) == decide (y = 0xff800000) then FPBits.inf binary32 false else 0, {})
  else if y = 0x3f000000 then
    if binary32.heq x 0 ∨ x = 0xff800000 then some (binary32.hmul m x x, {})
    else if binary32.hlt x 0 then some (FPBits.quietNaN binary32 false 0, { errno := some .edom, invalid := true })
    else some (sqrt binary32 m x, {})
  else if y = one32 then some (x, {})
  else if y = 0x40000000 then some (binary32.hmul m x x, {})
  else
    match powfInt m x y with
    | some r => some (r, {})
    | none =>
      if b > 0x7f800000 then some (if x = one32 then one32 else y, {})
      else none

/-- l.238: an exponent beyond `0x4f170000` is replaced by `±2^32` -/
def powfClampY (y : ℕ) : ℕ := if FPBits.abs binary32 y > 0x4f170000 then (y &&& FPBits.signMask binary32) + 0x4f800000 else y

/-- l.244-310, second part of `handle_exceptional_cases`: the results decided by `x`; `y0` is `y` before the replacement above -/
def powfXCase (m : Mode) (x y y0 : ℕ) : Option (ℕ × PowEff) :=
  let a := FPBits.abs binary32 x
  if ¬ (x &&& 0x801fffff = 0 ∨ x ≥ 0x7f800000 ∨ x < 0x00800000) then none
  else if x = one32 then some (one32, {})
  else if x = 0x40000000 then some (exp2Float m y, {})
  else if x = 0x41200000 then some (exp10Float m y, {})
  else
    let neg := decide (x ≥ FPBits.signMask binary32) && isOddIntegerF y0
    if binary32.heq x 0 then
      if y0 > 0x80000000 then some (FPBits.inf binary32 neg, { errno := some .edom, divByZero := true })
      else some (binary32.zero neg, {})
    else if a = 0x7f800000 then
      if y0 ≥ FPBits.signMask binary32 then some (binary32.zero neg, {}) else some (FPBits.inf binary32 neg, {})
    else if a > 0x7f800000 then some (x, {})
    else if x ≥ FPBits.signMask binary32 ∧ !isIntegerF y then some (FPBits.quietNaN binary32 false 0, { errno := some .edom, invalid := true })
    else none

/-- l.314-500 `powf_impl`.  l.287-310: a subnormal `x` is scaled by `2^64`, a negative one made positive; the test l.335 for a negative `x` with a
fractional `y` is then never true and is left out. -/
def powF (ce fused : Bool) (m : Mode) (x y : ℕ) : Option (ℕ × PowEff) :=
  match powfYCase m x y with
  | some r => some r
  | none =>
    let y' := powfClampY y
    match powfXCase m x y' y with
    | some r => some r
    | none =>
      let sub := decide (FPBits.abs binary32 x < 0x00800000)
      let x' := if sub then binary32.hmul m x 0x5f800000 else x -- 0x1.0p64F
      let neg := decide (x ≥ FPBits.signMask binary32)
      powfKernel ce fused m (if neg then binary32.hneg x' else x') y' (if sub then -127 - 64 else -127) (neg && isOddIntegerF y')

end CC
end Verif
