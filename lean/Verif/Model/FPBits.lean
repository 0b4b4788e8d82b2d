import Verif.Fmt

/-!
# Model of `internal/support/fp/fp_bits.hpp` (`FPBits<T>`, formats with a hidden bit)

All paths are relative to `/repo/include/ccmath/`.  Bit patterns are natural numbers below `2^(1+E+F)`;
every mask, shift and merge is the C++ expression with `Nat` bit operations.  `storage_type` is an
unsigned type of exactly `1+E+F` bits for binary32/64, none of the expressions below overflows it.
The 80-bit specialisation (l.440-582) is not modelled here.
-/

namespace Verif.FPBits
variable (f : Fmt)

/-- l.147/172 `significand_mask` = `fraction_mask` = `mask_trailing_ones<.., F>` -/
def fracMask : ℕ := 2 ^ f.F - 1
/-- l.152 `exponent_mask` -/
def expMask : ℕ := (2 ^ f.E - 1) <<< f.F
/-- l.157 `sign_mask` -/
def signMask : ℕ := 1 <<< (f.E + f.F)
/-- l.162 `exponent_significand_mask` -/
def expSigMask : ℕ := 2 ^ (f.E + f.F) - 1

/-- l.186-191 `merge` -/
def merge (a b mask : ℕ) : ℕ := a ^^^ ((a ^^^ b) &&& mask)
/-- l.307 `encode(BiasedExponent)` -/
def encodeExp (e : ℕ) : ℕ := (e <<< f.F) &&& expMask f
/-- l.309 `encode(Significand)` -/
def encodeSig (m : ℕ) : ℕ := m &&& fracMask f
/-- l.313-317 `encode(sign, exp, sig)` -/
def encode (s : Bool) (e m : ℕ) : ℕ :=
  if s then signMask f ||| (encodeExp f e ||| encodeSig f m) else encodeExp f e ||| encodeSig f m

/-- l.233-235, 251: biased encodings of `Exponent::subnormal/zero/min/max/inf` -/
def bSub : ℕ := 0
/-- `Exponent::zero()` -/
def bZero : ℕ := f.bias
/-- `Exponent::min()` = `1 - bias` -/
def bMin : ℕ := 1
/-- `Exponent::max()` = `bias` -/
def bMax : ℕ := f.bias + f.bias
/-- `Exponent::inf()` = `bias + 1` -/
def bInf : ℕ := f.bias + 1 + f.bias

/-- l.326 `exp_bits` -/
def expBits (x : ℕ) : ℕ := x &&& expMask f
/-- l.328 `sig_bits` -/
def sigBits (x : ℕ) : ℕ := x &&& fracMask f
/-- l.330 `exp_sig_bits` -/
def expSigBits (x : ℕ) : ℕ := x &&& expSigMask f
/-- l.334/675 `biased_exponent` / `get_biased_exponent` -/
def biasedExp (x : ℕ) : ℕ := expBits f x >>> f.F
/-- l.337/678 `set_biased_exponent` -/
def setBiasedExp (x e : ℕ) : ℕ := merge x (encodeExp f e) (expMask f)
/-- l.345 `sign`, l.671 `is_neg` -/
def isNeg (x : ℕ) : Bool := (x &&& signMask f) != 0
/-- l.346-349 `set_sign` -/
def setSign (x : ℕ) (s : Bool) : ℕ := if isNeg f x != s then x ^^^ signMask f else x

/-- l.378 `zero` -/
def zero (s : Bool) : ℕ := encode f s bSub 0
/-- l.380 `one` -/
def one (s : Bool) : ℕ := encode f s (bZero f) 0
/-- l.382 `min_subnormal` -/
def minSubnormal (s : Bool) : ℕ := encode f s bSub 1
/-- l.384 `max_subnormal` -/
def maxSubnormal (s : Bool) : ℕ := encode f s bSub (fracMask f)
/-- l.387 `min_normal` -/
def minNormal (s : Bool) : ℕ := encode f s bMin 0
/-- l.389 `max_normal` -/
def maxNormal (s : Bool) : ℕ := encode f s (bMax f) (fracMask f)
/-- l.391 `inf` -/
def inf (s : Bool) : ℕ := encode f s (bInf f) 0
/-- l.302 `Significand::msb` -/
def msb : ℕ := 1 <<< (f.F - 1)
/-- l.396 `quiet_nan` -/
def quietNaN (s : Bool) (v : ℕ) : ℕ := encode f s (bInf f) (msb f ||| v)

/-- l.401 `is_zero` -/
def isZero (x : ℕ) : Bool := expSigBits f x == 0
/-- l.403 `is_nan` -/
def isNan (x : ℕ) : Bool := decide (expSigBits f x > (encodeExp f (bInf f) ||| encodeSig f 0))
/-- l.405 `is_quiet_nan` -/
def isQuietNan (x : ℕ) : Bool := decide (expSigBits f x ≥ (encodeExp f (bInf f) ||| encodeSig f (msb f)))
/-- l.407 `is_signaling_nan` -/
def isSignalingNan (x : ℕ) : Bool := isNan f x && !isQuietNan f x
/-- l.409 `is_inf` -/
def isInf (x : ℕ) : Bool := expSigBits f x == (encodeExp f (bInf f) ||| encodeSig f 0)
/-- l.411 `is_finite` -/
def isFinite (x : ℕ) : Bool := expBits f x != encodeExp f (bInf f)
/-- l.413 `is_subnormal` (true for zero) -/
def isSubnormal (x : ℕ) : Bool := expBits f x == encodeExp f bSub
/-- l.415 `is_normal` -/
def isNormal (x : ℕ) : Bool := isFinite f x && !isSubnormal f x
/-- l.669 `is_inf_or_nan` -/
def isInfOrNan (x : ℕ) : Bool := !isFinite f x
/-- l.430-434 `get_explicit_mantissa` -/
def explicitMantissa (x : ℕ) : ℕ := if isSubnormal f x then sigBits f x else (1 <<< f.F) ||| sigBits f x
/-- l.653 `abs` -/
def abs (x : ℕ) : ℕ := x &&& expSigMask f
/-- l.681 `get_exponent` -/
def getExponent (x : ℕ) : ℤ := (biasedExp f x : ℤ) - f.bias
/-- l.693-699 `get_explicit_exponent` -/
def explicitExponent (x : ℕ) : ℤ :=
  let e : ℤ := (biasedExp f x : ℤ) - f.bias
  let e := if isZero f x then 0 else e
  if e = -(f.bias : ℤ) then 1 - (f.bias : ℤ) else e
/-- l.701 `get_mantissa` -/
def getMantissa (x : ℕ) : ℕ := x &&& fracMask f
/-- l.707 `set_mantissa` -/
def setMantissa (x m : ℕ) : ℕ := merge x m (fracMask f)
/-- l.726 `create_value` -/
def createValue (s : Bool) (e m : ℕ) : ℕ := encode f s e m

end Verif.FPBits
