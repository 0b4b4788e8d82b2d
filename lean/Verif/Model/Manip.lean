import Verif.Model.Nearest

/-!
# Floating-point manipulation: `math/fmanip/*.hpp` and their implementations

`hm`/`m` is the rounding mode of the hardware operators (and of `fenv::get_rounding_mode`).  Exception
flags and errno are not modelled.
-/

namespace Verif
namespace CC
variable (f : Fmt)

/-- `modf_impl`, `math/fmanip/impl/modf_impl.hpp` l.22-50; returns (fractional, *iptr) -/
def modf (hm : Mode) (x : ℕ) : ℕ × ℕ :=
  if isnan f x then (x, x)
  else if isinf f x then (FPBits.zero f (FPBits.isNeg f x), x)
  else if f.heq x (f.zero false) then (x, x)
  else
    let ip := trunc f x
    let fractional := f.hsub hm x ip
    if f.heq fractional (f.zero false) then (FPBits.zero f (FPBits.isNeg f x), ip) else (fractional, ip)

/-- the loop of `frexp_impl`, `impl/frexp_impl.hpp` l.39-44.  `none`: more iterations than `fuel`. -/
def frexpLoop (hm : Mode) : ℕ → ℕ → ℤ → Option (ℕ × ℤ)
  | fuel, value, exponent =>
    if FPBits.isSubnormal f value then
      match fuel with
      | 0 => none
      | fuel + 1 => frexpLoop hm fuel (f.hmul hm value (twoLit f false)) (exponent - 1)
    else some (value, exponent)

/-- `frexp_impl`, `internal/math/generic/func/fmanip/impl/frexp_impl.hpp` l.19-50; `exp0` is the previous content of the
output argument.  `none` would mean that the normalisation loop runs more than `F + 1` times. -/
def frexp (hm : Mode) (x : ℕ) (exp0 : ℤ) : Option (ℕ × ℤ) :=
  if FPBits.isZero f x then some (x, 0)
  else if FPBits.isInfOrNan f x then some (x, exp0)
  else
    let r := if FPBits.isSubnormal f x then frexpLoop f hm (f.F + 1) x (FPBits.explicitExponent f x)
             else some (x, FPBits.getExponent f x)
    r.map fun p => (FPBits.setBiasedExp f p.1 (f.bias - 1), p.2 + 1)

/-- `ilogb_impl`, `impl/ilogb_impl.hpp` l.44-74.  `ilogb0`/`ilogbnan` are the implementation's `FP_ILOGB0`/`FP_ILOGBNAN`. -/
def ilogb (hm : Mode) (ilogb0 ilogbnan : ℤ) (x : ℕ) : Option ℤ :=
  if FPBits.isNan f x then some ilogbnan
  else if FPBits.isInf f x then some (2 ^ 31 - 1)
  else if FPBits.isZero f x then some ilogb0
  else (frexp f hm x 0).map fun p => p.2 - 1

/-- `logb_impl`, `impl/logb_impl.hpp` l.23-40 -/
def logb (hm : Mode) (ilogb0 ilogbnan : ℤ) (x : ℕ) : Option ℕ :=
  if FPBits.isNan f x then some x
  else if FPBits.isInf f x then some (FPBits.inf f false)
  else if FPBits.isZero f x then some (f.hneg (FPBits.inf f false))
  else (ilogb f hm ilogb0 ilogbnan x).map fun e => f.ofInt hm e

/-- `NormalizedFloat<T>`, `internal/types/normalized_float.hpp` l.30-40 -/
structure NormalizedFloat where
  exponent : ℤ
  mantissa : ℕ
  sign : Bool

/-- `evaluate_normalization_shift`, `normalized_float.hpp` l.89-94 (the loop condition bounds it by `F` steps) -/
def normShift : ℕ → ℕ → ℕ → ℕ
  | 0, _, shift => shift
  | fuel + 1, m, shift => if ((1 <<< f.F) &&& m) = 0 then normShift fuel (m <<< 1) (shift + 1) else shift

/-- constructor `NormalizedFloat(T)` → `init_from_bits` l.96-127 (binary32/64) -/
def NormalizedFloat.ofBits (x : ℕ) : NormalizedFloat :=
  if FPBits.isInfOrNan f x || FPBits.isZero f x then ⟨0, 0, FPBits.isNeg f x⟩
  else if FPBits.isSubnormal f x then
    let shift := normShift f f.F (FPBits.getMantissa f x) 0
    ⟨1 - (f.bias : ℤ) - shift, FPBits.getMantissa f x <<< shift, FPBits.isNeg f x⟩
  else ⟨(FPBits.biasedExp f x : ℤ) - f.bias, (1 <<< f.F) ||| FPBits.getMantissa f x, FPBits.isNeg f x⟩

/-- `convert_ieee`, `normalized_float.hpp` l.160-196 -/
def NormalizedFloat.convert (n : NormalizedFloat) : ℕ :=
  let biased := n.exponent + f.bias
  if biased > ((1 <<< f.E : ℕ) : ℤ) - 2 then FPBits.inf f n.sign
  else
    let result := FPBits.setSign f 0 n.sign
    let subnormalExponent : ℤ := -(f.bias : ℤ) + 1
    if n.exponent < subnormalExponent then
      let shift := (subnormalExponent - n.exponent).toNat
      if shift ≤ f.F + 1 then
        let shiftOut := n.mantissa &&& ((1 <<< shift) - 1)
        let halfway := 1 <<< (shift - 1)
        let result := FPBits.setBiasedExp f result 0
        let result := FPBits.setMantissa f result (n.mantissa >>> shift)
        let nm := FPBits.getMantissa f result
        let nm := if shiftOut > halfway then nm + 1
                  else if shiftOut = halfway then (if FPBits.getMantissa f result &&& 1 ≠ 0 then nm + 1 else nm) else nm
        let result := FPBits.setMantissa f result nm
        if nm = 1 <<< f.F then FPBits.setBiasedExp f result 1 else result
      else result
    else FPBits.setMantissa f (FPBits.setBiasedExp f result biased.toNat) n.mantissa

/-- `internal_ldexp`, `internal/support/helpers/internal_ldexp.hpp` l.29-79 -/
def ldexp (m : Mode) (x : ℕ) (exp : ℤ) : ℕ :=
  if exp = 0 || FPBits.isZero f x || FPBits.isInfOrNan f x then x
  else
    let limit : ℤ := (((2 ^ f.E - 1 : ℕ) : ℤ) + f.F + 1)
    if exp > limit then
      let s := FPBits.isNeg f x
      if (!s && m = .down) || (s && m = .up) || m = .zero then FPBits.maxNormal f s else FPBits.inf f s
    else if exp < -limit then
      let s := FPBits.isNeg f x
      if (!s && m = .up) || (s && m = .down) then FPBits.minSubnormal f s else FPBits.zero f s
    else
      let n := NormalizedFloat.ofBits f x
      NormalizedFloat.convert f { n with exponent := n.exponent + exp }

/-- literal `2^(e-bias)` with biased exponent `e` -/
def pow2Lit (e : ℕ) : ℕ := f.pack false (e * 2 ^ f.F)

/-- `scalbn_double_impl` (`scalbn_double_impl.hpp` l.24-55: `bias` = 1023, `F` = 52) and `scalbn_float_impl`
(`scalbn_float_impl.hpp` l.26-57: `bias` = 127, `F` = 23); the literals are `0x1p1023` = biased exponent `2*bias`,
`0x1p-1022 * 0x1p53` = biased exponent `F + 2`, and the final bit pattern is `(bias + exp) << F`.
`FLT_EVAL_METHOD == 0` (`double_t` = `double`, `float_t` = `float`). -/
def scalbn (m : Mode) (x : ℕ) (exp : ℤ) : ℕ :=
  let b : ℤ := f.bias
  let r : ℕ × ℤ :=
    if exp > b then
      let tmp := f.hmul m x (pow2Lit f (2 * f.bias))
      let exp := exp - b
      if exp > b then (f.hmul m tmp (pow2Lit f (2 * f.bias)), min (exp - b) b) else (tmp, exp)
    else if exp < 1 - b then
      let tmp := f.hmul m x (pow2Lit f (f.F + 2))
      let exp := exp + (b - 1 - (f.F + 1))
      if exp < 1 - b then (f.hmul m tmp (pow2Lit f (f.F + 2)), max (exp + (b - 1 - (f.F + 1))) (1 - b)) else (tmp, exp)
    else (x, exp)
  f.hmul m r.1 (((b + r.2).toNat) <<< f.F)

/-- `nextafter_gen`, `internal/math/generic/func/fmanip/nextafter_gen.hpp` l.23-55, for `TFrom` = `TTo` -/
def nextafter (x y : ℕ) : ℕ :=
  if FPBits.isNan f x then x
  else if FPBits.isNan f y then y
  else if f.heq x y then y
  else if !f.heq x (f.zero false) then
    if f.hlt x y = f.hgt x (f.zero false) then x + 1 else x - 1
  else FPBits.minSubnormal f (FPBits.isNeg f y)

/-- `nextup`, `math/fmanip/nextup.hpp` l.20-22 -/
def nextup (x : ℕ) : ℕ := nextafter f x (f.inf false)
/-- `nextdown`, `math/fmanip/nextdown.hpp` l.20-22 -/
def nextdown (x : ℕ) : ℕ := nextafter f x (f.hneg (f.inf false))

end CC
end Verif
