import Verif.Hw
import Verif.Model.FPBits

/-!
# Model of `internal/support/fp/fma.hpp`: `special_case_fma`, `round_normalized`, `fixed_fma`

The kernel is parametrised by the widths of its traits (l.101-120): `Wp` = bits of `product_int`, `W` = bits of `acc_int`,
`A` = `accumulator_bits`.  `product_int`/`acc_int` values are natural numbers and every operation that could wrap is reduced modulo
the width (that `UInt<N>` computes these operations modulo `2^N` is C27, C28, C30).  Floating-point exception flags are returned
explicitly; `errno` is not modelled.  `wide_fma` is represented by the distinct outcome `none`.
-/

namespace Verif
/-- `<cfenv>` exception flags raised by a call -/
structure Flags where
  invalid : Bool := false
  overflow : Bool := false
  underflow : Bool := false
  inexact : Bool := false
  deriving DecidableEq, Repr

namespace CC
variable (f : Fmt)

/-- `support/bits.hpp` l.327-330 `bit_width`, fma.hpp l.44-49 `int_bit_width` -/
def bitWidth (n : ℕ) : ℕ := if n = 0 then 0 else Nat.log2 n + 1

/-- fma.hpp l.51-60 `int_get_bit` -/
def intGetBit (v : ℕ) (i : ℤ) : Bool := if i < 0 then false else v.testBit i.toNat

/-- fma.hpp l.62-82 `lower_bits_nonzero`; `W` = digits of the integer type -/
def lowerBitsNonzero (W v : ℕ) (c : ℤ) : Bool :=
  if c ≤ 0 then false else if c ≥ W then v != 0 else v % 2 ^ c.toNat != 0

/-- fma.hpp l.84-99 `shift_right_with_sticky`: returns the sticky flag and the shifted value -/
def shiftRightSticky (W : ℕ) (sh : ℤ) (v : ℕ) : Bool × ℕ :=
  if sh ≤ 0 ∨ v = 0 then (false, v)
  else if sh ≥ W then (true, 0)
  else (lowerBitsNonzero W v sh, v >>> sh.toNat)

/-- fma.hpp l.125-135 `decoded_operand` -/
structure Decoded where
  sign : Bool
  mantissa : ℕ
  width : ℕ
  lsb : ℤ
  top : ℤ

/-- fma.hpp l.137-147 `decode_finite_nonzero` -/
def decode (x : ℕ) : Decoded :=
  let mant := FPBits.explicitMantissa f x
  let w := bitWidth mant
  let lsb := FPBits.explicitExponent f x - f.F
  { sign := FPBits.isNeg f x, mantissa := mant, width := w, lsb := lsb, top := lsb + w - 1 }

/-- fma.hpp l.152-154 `propagate_quiet_nan` -/
def propagateQuietNaN (x : ℕ) : ℕ := FPBits.quietNaN f (FPBits.isNeg f x) (FPBits.getMantissa f x)

/-- fma.hpp l.156-243 `special_case_fma` (the non-Apple variant of l.170) -/
def specialCaseFma (m : Mode) (x y z : ℕ) : Option (ℕ × Flags) :=
  if FPBits.isNan f x || FPBits.isNan f y || FPBits.isNan f z then
    let inv := (FPBits.isSignalingNan f x || FPBits.isSignalingNan f y || FPBits.isSignalingNan f z) ||
      (!FPBits.isQuietNan f z && ((FPBits.isZero f x && FPBits.isInf f y) || (FPBits.isInf f x && FPBits.isZero f y)))
    let r := if FPBits.isQuietNan f x then propagateQuietNaN f x
      else if FPBits.isQuietNan f y then propagateQuietNaN f y
      else if FPBits.isQuietNan f z then propagateQuietNaN f z
      else FPBits.quietNaN f false 0
    some (r, { invalid := inv })
  else if FPBits.isInf f x || FPBits.isInf f y then
    if FPBits.isZero f x || FPBits.isZero f y then some (FPBits.quietNaN f false 0, { invalid := true })
    else
      let ps := FPBits.isNeg f x != FPBits.isNeg f y
      if FPBits.isInf f z && (FPBits.isNeg f z != ps) then some (FPBits.quietNaN f false 0, { invalid := true })
      else some (FPBits.inf f ps, {})
  else if FPBits.isInf f z then some (z, {})
  else if FPBits.isZero f x || FPBits.isZero f y then
    let ps := FPBits.isNeg f x != FPBits.isNeg f y
    if FPBits.isZero f z then
      some (FPBits.zero f (if ps != FPBits.isNeg f z then decide (m = .down) else ps), {})
    else some (z, {})
  else none

/-- the rounding increment of fma.hpp l.320-332 -/
def roundIncrement (m : Mode) (s rb st lsb : Bool) : Bool :=
  match m with
  | .nearest => rb && (lsb || st)
  | .down => s && (rb || st)
  | .up => !s && (rb || st)
  | .zero => false

/-- fma.hpp l.245-354 `round_normalized` (`ShouldSignalExceptions = true`) -/
def roundNormalized (W A : ℕ) (m : Mode) (sign : Bool) (base : ℤ) (M : ℕ) (stickyTail : Bool) : ℕ × Flags :=
  if M = 0 then (FPBits.zero f sign, {}) else
  let prec : ℤ := f.F + 1
  let normalShift : ℤ := A - prec
  let minExp : ℤ := 1 - f.bias
  let minSubLs : ℤ := minExp - f.F
  let top : ℤ := base + (A - 1)
  if top > f.bias then
    (match m with
      | .nearest => FPBits.inf f sign
      | .zero => FPBits.maxNormal f sign
      | .down => if !sign then FPBits.maxNormal f false else FPBits.inf f true
      | .up => if sign then FPBits.maxNormal f true else FPBits.inf f false,
      { overflow := true, inexact := true })
  else
    let st : ℕ → ℕ := fun v => v % 2 ^ (f.E + f.F + 1)
    let q : ℕ × ℕ × Bool × Bool × Bool :=
      if top ≥ minExp then
        ((top + f.bias).toNat, st (M >>> normalShift.toNat), intGetBit M (normalShift - 1),
          stickyTail || lowerBitsNonzero W M (normalShift - 1), false)
      else
        let sh := minSubLs - base
        if sh > A then (0, 0, false, true, true)
        else if sh = A then (0, 0, intGetBit M (A - 1), stickyTail || lowerBitsNonzero W M (A - 1), true)
        else (0, st (M >>> sh.toNat), intGetBit M (sh - 1), stickyTail || lowerBitsNonzero W M (sh - 1), true)
    let outExp := q.1
    let outMant := q.2.1
    let rb := q.2.2.1
    let sticky := q.2.2.2.1
    let underflow := q.2.2.2.2
    let lsb := (outMant &&& 1) != 0
    let result := FPBits.createValue f sign outExp outMant
    let result := if roundIncrement m sign rb sticky lsb then result + 1 else result
    let fl : Flags :=
      if rb || sticky then
        { inexact := true, overflow := FPBits.isInf f result, underflow := !FPBits.isInf f result && underflow }
      else {}
    (result, fl)

/-- fma.hpp l.407-481, the end of `fixed_fma`: addition or subtraction of the aligned accumulators (`p`, `zz` with sticky flags
`pst`, `zst` and signs `ps`, `zs`), normalisation and rounding; `none` is the call of `wide_fma` in l.473 -/
def fmaCombine (W A : ℕ) (m : Mode) (ps zs pst : Bool) (p : ℕ) (zst : Bool) (zz : ℕ) (base : ℤ) : Option (ℕ × Flags) :=
  if ps = zs then
    let r := (p + zz) % 2 ^ W
    let tail := pst || zst
    if bitWidth r > A then some (roundNormalized f W A m ps (base + 1) (r >>> 1) (tail || intGetBit r 0))
    else some (roundNormalized f W A m ps base r tail)
  else
    let cmp : ℤ := if p > zz then 1 else if p < zz then -1 else if pst != zst then (if pst then 1 else -1) else 0
    if cmp = 0 then some (FPBits.zero f (decide (m = .down)), {})
    else
      let d : Bool × ℕ × Bool :=
        if cmp > 0 then
          if zst then (ps, (p + 2 ^ W - zz + 2 ^ W - 1) % 2 ^ W, true) else (ps, (p + 2 ^ W - zz) % 2 ^ W, pst)
        else
          if pst then (zs, (zz + 2 ^ W - p + 2 ^ W - 1) % 2 ^ W, true) else (zs, (zz + 2 ^ W - p) % 2 ^ W, zst)
      let rs := d.1
      let r := d.2.1
      let tail := d.2.2
      if r = 0 then (if !tail then some (FPBits.zero f (decide (m = .down)), {}) else none)
      else
        let ns := A - bitWidth r
        some (roundNormalized f W A m rs (base - ns) ((r <<< ns) % 2 ^ W) tail)

/-- fma.hpp l.356-482 `fixed_fma` -/
def fixedFma (Wp W A : ℕ) (m : Mode) (x y z : ℕ) : Option (ℕ × Flags) :=
  match specialCaseFma f m x y z with
  | some r => some r
  | none =>
    let xv := decode f x
    let yv := decode f y
    let pm := (xv.mantissa * yv.mantissa) % 2 ^ Wp
    let pw := bitWidth pm
    let plsb := xv.lsb + yv.lsb
    let ptop := plsb + pw - 1
    let ps := xv.sign != yv.sign
    let pacc := (pm <<< (A - pw)) % 2 ^ W
    if FPBits.isZero f z then some (roundNormalized f W A m ps (ptop - (A - 1)) pacc false)
    else
      let zv := decode f z
      let zacc := (zv.mantissa <<< (A - zv.width)) % 2 ^ W
      let c : (Bool × ℕ) × (Bool × ℕ) × ℤ :=
        if ptop > zv.top then ((false, pacc), shiftRightSticky W (ptop - zv.top) zacc, ptop - (A - 1))
        else if zv.top > ptop then (shiftRightSticky W (zv.top - ptop) pacc, (false, zacc), zv.top - (A - 1))
        else ((false, pacc), (false, zacc), ptop - (A - 1))
      let pst := c.1.1
      let p := c.1.2
      let zst := c.2.1.1
      let zz := c.2.1.2
      let base := c.2.2
      fmaCombine f W A m ps zv.sign pst p zst zz base

/-- fma.hpp l.602-611, 629-638 `public_fma<float>`: traits l.104-111 -/
def fmaf (m : Mode) (x y z : ℕ) : Option (ℕ × Flags) := fixedFma binary32 64 128 96 m x y z
/-- fma.hpp l.629-638 `public_fma<double>`: traits l.113-120 -/
def fma (m : Mode) (x y z : ℕ) : Option (ℕ × Flags) := fixedFma binary64 128 256 212 m x y z

end CC
end Verif
