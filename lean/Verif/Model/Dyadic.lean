import Verif.Model.BigInt
import Verif.Model.Fma
import Verif.Model.FpSupport
import Mathlib.Data.Nat.Digits.Defs

/-!
# Dyadic floats: `internal/types/dyadic_float.hpp`; narrowing cast and software arithmetic: `internal/support/fp/cast.hpp`, `fp/ops/*.hpp`

A `DyadicFloat<Bits>` is a sign, an exponent and a mantissa below `2^Bits`.  Simplifications:
* the mantissa (`UInt<Bits>`) is a natural number and `<<`, `>>`, `+`, `-`, `&`, comparisons and `countl_zero` on it are the operations modulo
  `2^Bits`; that the word-level code computes exactly these is proved in `Props/BigInt.lean` (C27, C29, C30).  `quick_mul_hi`, which is not an
  exact operation, goes through the word-level model of `Model/BigInt.lean`;
* exponents are unbounded integers: signed overflow of `int exponent` is not modelled;
* `errno` and exception flags are not modelled.  (`if constexpr (ShouldSignalExceptions && ...)` in l.384 and l.456 tests a run-time value and is
  ill-formed when `ShouldSignalExceptions` is true; the model takes the value computed by `as` with that test removed.)
-/

namespace Verif

/-- the fused operation `x*y + z` of the hardware on finite data, one rounding -/
def Fmt.hfma (f : Fmt) (m : Mode) (x y z : ℕ) : ℕ :=
  let t := f.ival x * f.ival y + f.ival z * f.uscale
  if t = 0 then f.zero (zeroSign m (xor (f.sgn x) (f.sgn y)) (f.sgn z))
  else f.roundQ m (decide (t < 0)) t.natAbs f.uscale

/-- conversion `static_cast<Out>(x)` of the hardware from format `g` to format `f` -/
def Fmt.hcvt (f g : Fmt) (m : Mode) (x : ℕ) : ℕ :=
  if g.nanB x then f.qnan
  else if g.infB x then f.inf (g.sgn x)
  else f.roundQ m (g.sgn x) (g.umag (g.mag x) * f.uscale) g.uscale

/-- dyadic_float.hpp l.105-112 -/
structure Dy where
  s : Bool
  e : ℤ
  m : ℕ
  deriving DecidableEq, Repr

namespace CC
open Fmt

/-- l.137-146 `normalize` -/
def dyNormalize (B : ℕ) (d : Dy) : Dy :=
  if d.m ≠ 0 then
    let sh := B - bitWidth d.m
    ⟨d.s, d.e - sh, (d.m <<< sh) % 2 ^ B⟩
  else d

/-- l.127 constructor -/
def dyMk (B : ℕ) (s : Bool) (e : ℤ) (m : ℕ) : Dy := dyNormalize B ⟨s, e, m⟩

/-- l.116-125 constructor from a floating-point value -/
def dyOf (f : Fmt) (B : ℕ) (x : ℕ) : Dy :=
  dyNormalize B ⟨FPBits.isNeg f x, FPBits.explicitExponent f x - f.F, FPBits.explicitMantissa f x % 2 ^ B⟩

/-- l.157-170 `shift_left` -/
def dyShl (B : ℕ) (d : Dy) (n : ℕ) : Dy :=
  if n < B then ⟨d.s, d.e - n, (d.m <<< n) % 2 ^ B⟩ else ⟨d.s, 0, 0⟩

/-- l.181-194 `shift_right` -/
def dyShr (B : ℕ) (d : Dy) (n : ℕ) : Dy :=
  if n < B then ⟨d.s, d.e + n, d.m >>> n⟩ else ⟨d.s, 0, 0⟩

/-- l.554 unary minus -/
def dyNeg (B : ℕ) (d : Dy) : Dy := dyMk B (!d.s) d.e d.m

/-- l.54-73 `rounding_direction` -/
def roundingDirection (md : Mode) (B value rshift : ℕ) (neg : Bool) : ℤ :=
  if rshift = 0 ∨ (rshift < B ∧ (value <<< (B - rshift)) % 2 ^ B = 0) ∨ (rshift ≥ B ∧ value = 0) then 0
  else match md with
    | .nearest =>
      if rshift > 0 ∧ rshift ≤ B ∧ value.testBit (rshift - 1) then
        let roundBit := if rshift < B then value.testBit rshift else false
        if roundBit || ((value <<< (B - rshift + 1)) % 2 ^ B != 0) then 1 else -1
      else -1
    | .zero => -1
    | .down => if neg ∧ (rshift < B ∧ (value <<< (B - rshift)) % 2 ^ B ≠ 0) then 1 else -1
    | .up => if ¬ neg ∧ (rshift < B ∧ (value <<< (B - rshift)) % 2 ^ B ≠ 0) then 1 else -1

/-- l.203-217 `round`; `IB` is the width of the input mantissa -/
def dyRound (md : Mode) (B IB : ℕ) (s : Bool) (e : ℤ) (inp rshift : ℕ) : Dy :=
  let r := (inp >>> rshift) % 2 ^ B
  if roundingDirection md IB inp rshift s > 0 then
    let r := (r + 1) % 2 ^ B
    if r = 0 then dyMk B s (e + 1) (2 ^ (B - 1)) else dyMk B s e r
  else dyMk B s e r

/-- l.219-330 `generic_as` -/
def genericAs (f : Fmt) (B : ℕ) (md : Mode) (d : Dy) : ℕ :=
  if d.m = 0 then FPBits.zero f d.s
  else
    let extra : ℤ := (B : ℤ) - 1 - f.F
    let ue : ℤ := d.e + (B - 1)
    if ue + f.bias ≥ 2 ^ f.E - 1 then
      match md with
      | .nearest => FPBits.inf f d.s
      | .zero => FPBits.maxNormal f d.s
      | .down => if !d.s then FPBits.maxNormal f false else FPBits.inf f true
      | .up => if d.s then FPBits.maxNormal f true else FPBits.inf f false
    else
      let (outExp, outMant, round, sticky) : ℕ × ℕ × Bool × Bool :=
        if ue < -(f.bias : ℤ) - f.F then (0, 0, false, true)
        else if ue = -(f.bias : ℤ) - f.F then (0, 0, true, (d.m &&& (2 ^ (B - 1) - 1)) != 0)
        else
          let len := if ue < 1 - (f.bias : ℤ) then extra + (1 - (f.bias : ℤ) - ue) else extra
          let oe := if ue < 1 - (f.bias : ℤ) then 0 else (ue + f.bias).toNat
          let roundMask := (1 <<< (len - 1).toNat) % 2 ^ B
          let stickyMask := (roundMask + 2 ^ B - 1) % 2 ^ B
          (oe, (d.m >>> len.toNat) % 2 ^ (f.E + f.F + 1), (d.m &&& roundMask) != 0, (d.m &&& stickyMask) != 0)
      let lsb := (outMant &&& 1) != 0
      let result := FPBits.createValue f d.s outExp outMant
      let inc := match md with
        | .nearest => round && (lsb || sticky)
        | .down => d.s && (round || sticky)
        | .up => !d.s && (round || sticky)
        | .zero => false
      if inc then (result + 1) % 2 ^ (f.E + f.F + 1) else result

/-- `support/multiply_add.hpp` l.45-60: `(x * y) + z`, or the fused operation when the target has one -/
def multiplyAdd (f : Fmt) (fused : Bool) (md : Mode) (x y z : ℕ) : ℕ := if fused then f.hfma md x y z else f.hadd md (f.hmul md x y) z

/-- l.356-467 `fast_as`, l.485-489 `as` (formats with a hidden bit: `implicit_mask = 0`, `significand_length = F`) -/
def fastAs (f : Fmt) (B : ℕ) (fused : Bool) (md : Mode) (d : Dy) : ℕ :=
  if d.m = 0 then FPBits.zero f d.s
  else
    let precision := f.F + 1
    let expHi : ℤ := d.e + ((B - 1 : ℕ) + f.bias : ℤ)
    if expHi > 2 * f.bias then
      let dhi := FPBits.createValue f d.s (2 * f.bias) 0
      f.hmul md (pow2 f false 1) dhi
    else
      let denorm := decide (expHi ≤ 0)
      let shift : ℕ := if denorm then (B - precision) + (1 - expHi).toNat else B - precision
      let expHi : ℤ := if denorm then f.bias else expHi
      let expLo : ℤ := expHi - precision - 1
      let mHi := if shift ≥ B then 0 else d.m >>> shift
      let dHi := FPBits.createValue f d.s expHi.toNat ((mHi % 2 ^ (f.E + f.F + 1)) &&& FPBits.fracMask f)
      let roundMask := if (shift + 2 ^ 32 - 1) % 2 ^ 32 ≥ B then 0 else 1 <<< ((shift + 2 ^ 32 - 1) % 2 ^ 32)
      let stickyMask := (roundMask + 2 ^ B - 1) % 2 ^ B
      let roundBit := (d.m &&& roundMask) != 0
      let stickyBit := (d.m &&& stickyMask) != 0
      let rs : ℤ := (if roundBit then 1 else 0) * 2 + (if stickyBit then 1 else 0)
      if expLo ≤ 0 then
        let sue := 1 - expLo
        let up := FPBits.createValue f false (f.bias + sue).toNat 0
        let down := FPBits.createValue f false (f.bias - sue).toNat 0
        let dLo := FPBits.createValue f d.s (expLo + sue).toNat 0
        f.hmul md (multiplyAdd f fused md dLo (f.ofInt md rs) (f.hmul md dHi up)) down
      else
        let dLo := FPBits.createValue f d.s expLo.toNat 0
        let r := multiplyAdd f fused md dLo (f.ofInt md rs) dHi
        if denorm then
          let clearExp := (expHi.toNat <<< f.F) % 2 ^ (f.E + f.F + 1)
          (r + 2 ^ (f.E + f.F + 1) - clearExp) % 2 ^ (f.E + f.F + 1)
        else r

/-- l.508-523 `as_mantissa_type` -/
def asMantissa (B : ℕ) (d : Dy) : ℕ :=
  if d.m = 0 then 0
  else
    let n := if d.e > 0 then (d.m <<< d.e.toNat) % 2 ^ B else d.m >>> (-d.e).toNat
    if d.s then (2 ^ B - n) % 2 ^ B else n

/-- l.525-552 `as_mantissa_type_rounded`: the value and `round_dir` -/
def asMantissaRounded (md : Mode) (B : ℕ) (d : Dy) : ℕ × ℤ :=
  if d.m = 0 then (0, 0)
  else
    let (n, dir) : ℕ × ℤ :=
      if d.e > 0 then ((d.m <<< d.e.toNat) % 2 ^ B, 0)
      else if d.e < 0 then
        let sh := (-d.e).toNat
        let n := if sh ≥ B then 0 else d.m >>> sh
        let dir := roundingDirection md B d.m sh d.s
        (if dir > 0 then (n + 1) % 2 ^ B else n, dir)
      else (d.m, 0)
    (if d.s then (2 ^ B - n) % 2 ^ B else n, dir)

/-- l.584-628 `quick_add` -/
def quickAdd (B : ℕ) (a b : Dy) : Dy :=
  if a.m = 0 then b
  else if b.m = 0 then a
  else
    let b' := if a.e > b.e then dyShr B b (a.e - b.e).toNat else b
    let a' := if a.e > b.e then a else if b.e > a.e then dyShr B a (b.e - a.e).toNat else a
    if a'.s = b'.s then
      let sum := (a'.m + b'.m) % 2 ^ B
      if a'.m + b'.m ≥ 2 ^ B then
        let r := dyShr B ⟨a'.s, a'.e, sum⟩ 1
        ⟨r.s, r.e, r.m ||| 2 ^ (B - 1)⟩
      else ⟨a'.s, a'.e, sum⟩
    else if a'.m ≥ b'.m then dyNormalize B ⟨a'.s, a'.e, a'.m - b'.m⟩
    else dyNormalize B ⟨b'.s, b'.e, b'.m - a'.m⟩

/-- l.743-745 `quick_sub` -/
def quickSub (B : ℕ) (a b : Dy) : Dy := quickAdd B a (dyNeg B b)

/-- the words of a mantissa -/
def toWords (w N a : ℕ) : List ℕ := (List.range N).map fun i => a / 2 ^ (w * i) % 2 ^ w

/-- `quick_mul_hi` (big_int.hpp l.427-445) on the `N` words of `w` bits of two mantissas -/
def mulHi (wide : Bool) (w N a b : ℕ) : ℕ := Nat.ofDigits (2 ^ w) (BI.quickMulHi wide w (toWords w N a) (toWords w N b))

/-- l.654-676 `quick_mul`, `Bits = w * N` -/
def quickMul (wide : Bool) (w N : ℕ) (a b : Dy) : Dy :=
  let e := a.e + b.e + (w * N : ℕ)
  let s := a.s != b.s
  if ¬ (a.m = 0 ∨ b.m = 0) then
    let m := mulHi wide w N a.m b.m
    if (m / 2 ^ (w * (N - 1))) >>> (w - 1) = 0 then dyShl (w * N) ⟨s, e, m⟩ 1 else ⟨s, e, m⟩
  else ⟨s, e, 0⟩

/-- l.690-692 `multiply_add` -/
def dyMultiplyAdd (wide : Bool) (w N : ℕ) (a b c : Dy) : Dy := quickAdd (w * N) c (quickMul wide w N a b)

/-- l.713-718: loop of `pow_n` (at most 32 iterations) -/
def powNLoop (wide : Bool) (w N : ℕ) : ℕ → Dy → Dy → ℕ → Dy
  | 0, result, _, _ => result
  | k + 1, result, cur, power =>
    if power = 0 then result
    else powNLoop wide w N k (if power % 2 > 0 then quickMul wide w N result cur else result) (quickMul wide w N cur cur) (power >>> 1)

/-- l.707-720 `pow_n`; `1.0` is converted by the constructor of l.117 -/
def dyPowN (wide : Bool) (w N : ℕ) (a : Dy) (power : ℕ) : Dy :=
  powNLoop wide w N 32 (dyOf binary64 (w * N) 0x3FF0000000000000) a power

/-- l.735-741 `mul_pow_2` -/
def mulPow2 (a : Dy) (k : ℤ) : Dy := ⟨a.s, a.e + k, a.m⟩

/-- l.747-762 `rounded_mul` -/
def roundedMul (md : Mode) (B : ℕ) (a b : Dy) : Dy :=
  let s := a.s != b.s
  let e := a.e + b.e + B
  let p := (a.m * b.m) % 2 ^ (2 * B)
  if !p.testBit (2 * B - 1) then dyRound md B (2 * B) s (e - 1) ((p <<< 1) % 2 ^ (2 * B)) B
  else dyRound md B (2 * B) s e p B

/-- l.782-806 `rounded_div`; division by a zero mantissa is a distinct outcome -/
def roundedDiv (md : Mode) (B : ℕ) (a b : Dy) : Option Dy :=
  let s := a.s != b.s
  if a.m = 0 then some (dyMk B s 0 0)
  else
    let inUnit := decide (a.m < b.m)
    let e := a.e - b.e - B + (if inUnit then 0 else 1)
    let num := (a.m <<< (B - (if inUnit then 0 else 1) + 64)) % 2 ^ (B * 2 + 64)
    if b.m = 0 then none
    else
      let q := num / b.m
      let r := num % b.m
      let q := if r ≠ 0 then q ||| 1 else q
      some (dyRound md B (B * 2 + 64) s e q 64)

/-- l.773-777: loop of `approx_reciprocal` -/
def recipLoop (wide : Bool) (w N : ℕ) (a : Dy) : ℕ → ℕ → Dy → Dy
  | 0, _, x => x
  | k + 1, ok, x =>
    if ok < w * N then
      recipLoop wide w N a k (2 * ok - 1)
        (quickMul wide w N x (quickSub (w * N) (dyMk (w * N) false 1 1) (quickMul wide w N a x)))
    else x

/-- l.764-780 `approx_reciprocal` with `StartBits = 32`; a zero mantissa divides by zero.  The loop runs at most `Bits` times. -/
def approxReciprocal (wide : Bool) (w N : ℕ) (a : Dy) : Option Dy :=
  let d := (a.m >>> (w * N - 32)) % 2 ^ 64
  if d = 0 then none
  else some (recipLoop wide w N a (w * N) 31 (dyMk (w * N) false (-32 - a.e - (w * N : ℕ)) ((0xFFFFFFFFFFFFFFFF / d) % 2 ^ (w * N))))

/-! ### `internal/support/fp/cast.hpp`, `ops/mul.hpp`, `ops/add_or_sub.hpp` -/

/-- cast.hpp l.28-61, narrowing case from format `g` to format `f`; `B = bit_ceil(max_fraction_len + 1)` -/
def fpCast (f g : Fmt) (B : ℕ) (fused : Bool) (md : Mode) (x : ℕ) : ℕ :=
  if FPBits.isNan g x then
    if FPBits.isSignalingNan g x then FPBits.quietNaN f false 0
    else
      let mant := FPBits.getMantissa g x
      let mant := if g.F > f.F then mant >>> (g.F - f.F) else mant
      FPBits.quietNaN f (FPBits.isNeg g x) (mant % 2 ^ (f.E + f.F + 1))
  else if FPBits.isInf g x then FPBits.inf f (FPBits.isNeg g x)
  else fastAs f B fused md (dyOf g B x)

/-- mul.hpp l.48-67 and add_or_sub.hpp l.52-71: the result when an operand is NaN -/
def opNaN (f g : Fmt) (x y : ℕ) : ℕ :=
  if FPBits.isQuietNan g x then
    FPBits.quietNaN f (FPBits.isNeg g x) ((FPBits.getMantissa g x >>> (g.F - f.F)) % 2 ^ (f.E + f.F + 1))
  else if FPBits.isQuietNan g y then
    FPBits.quietNaN f (FPBits.isNeg g y) ((FPBits.getMantissa g y >>> (g.F - f.F)) % 2 ^ (f.E + f.F + 1))
  else FPBits.quietNaN f false 0

/-- mul.hpp l.29-104; the mantissa has `N` words of `w` bits, `w * N = bit_ceil(2 * significand_length)` -/
def opMul (f g : Fmt) (wide : Bool) (w N : ℕ) (fused : Bool) (md : Mode) (x y : ℕ) : ℕ :=
  let rs := !(FPBits.isNeg g x == FPBits.isNeg g y)
  if FPBits.isInfOrNan g x || FPBits.isInfOrNan g y || FPBits.isZero g x || FPBits.isZero g y then
    if FPBits.isNan g x || FPBits.isNan g y then opNaN f g x y
    else if FPBits.isInf g x then (if FPBits.isZero g y then FPBits.quietNaN f false 0 else FPBits.inf f rs)
    else if FPBits.isInf g y then (if FPBits.isZero g x then FPBits.quietNaN f false 0 else FPBits.inf f rs)
    else FPBits.zero f rs
  else fastAs f (w * N) fused md (quickMul wide w N (dyOf g (w * N) x) (dyOf g (w * N) y))

/-- add_or_sub.hpp l.29-185, `B = bit_ceil(F + 4)`; `S` is the width of the storage type of `g` -/
def opAddSub (f g : Fmt) (B : ℕ) (fused isSub : Bool) (md : Mode) (x y : ℕ) : ℕ :=
  let effAdd := (FPBits.isNeg g x == FPBits.isNeg g y) != isSub
  let S := g.E + g.F + 1
  let zeroMode := match md with
    | .down => FPBits.zero f true
    | _ => FPBits.zero f false
  let tmp := f.hcvt g md (if isSub then g.hneg y else y)
  if (FPBits.isInfOrNan g x || FPBits.isInfOrNan g y || FPBits.isZero g x || FPBits.isZero g y) then
    if FPBits.isNan g x || FPBits.isNan g y then opNaN f g x y
    else if FPBits.isInf g x then
      (if FPBits.isInf g y then (if !effAdd then FPBits.quietNaN f false 0 else FPBits.inf f (FPBits.isNeg g x)) else FPBits.inf f (FPBits.isNeg g x))
    else if FPBits.isInf g y then FPBits.inf f (FPBits.isNeg g y)
    else if FPBits.isZero g x then (if FPBits.isZero g y then zeroMode else tmp)
    else tmp
  else
    let xa := FPBits.abs g x
    let ya := FPBits.abs g y
    if g.heq xa ya && !effAdd then zeroMode
    else
      let rs :=
        if g.hgt xa ya then FPBits.isNeg g x
        else if g.hlt xa ya then (if effAdd then FPBits.isNeg g y else !FPBits.isNeg g y)
        else if effAdd then FPBits.isNeg g x else false
      let mx := if g.hlt xa ya then ya else xa
      let mn := if g.hlt ya xa then ya else xa
      let rm :=
        if FPBits.isSubnormal g mx then
          let t := if effAdd then FPBits.getMantissa g mx + FPBits.getMantissa g mn else FPBits.getMantissa g mx - FPBits.getMantissa g mn
          (t <<< 3) % 2 ^ S
        else
          let mxm := (FPBits.explicitMantissa g mx <<< 3) % 2 ^ S
          let mnm := (FPBits.explicitMantissa g mn <<< 3) % 2 ^ S
          let al := FPBits.biasedExp g mx - FPBits.biasedExp g mn
          let aligned := mnm >>> (min al (g.F + 4))
          let sticky := if al ≤ 3 then false else if al ≤ g.F + 3 then ((mnm <<< (S - al)) % 2 ^ S) != 0 else true
          let v := aligned ||| (if sticky then 1 else 0)
          if effAdd then (mxm + v) % 2 ^ S else (mxm + 2 ^ S - v) % 2 ^ S
      fastAs f B fused md (dyMk B rs (FPBits.getExponent g mx - (g.F + 3 : ℤ)) (rm % 2 ^ B))

end CC
end Verif
