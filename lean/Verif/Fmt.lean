import Mathlib.Data.Real.Basic
import Mathlib.Data.EReal.Basic
import Mathlib.Tactic.Ring
import Mathlib.Tactic.Linarith
import Mathlib.Tactic.NormNum

/-!
# Floating-point formats, bit patterns and their numerical meaning

A format is given by the number of exponent bits `E` and the number of stored fraction bits `F`
(`fp_bits.hpp` l.51-69: binary32 = 8/23, binary64 = 11/52).  A floating-point datum is its bit
pattern, a natural number below `2^(1+E+F)`.

This file contains *meaning only* (IEEE 754-2019 §3.4): no algorithm of ccmath.
-/

namespace Verif

/-- A binary interchange format: `E` exponent bits, `F` stored fraction bits. -/
structure Fmt where
  E : ℕ
  F : ℕ
  hE : 2 ≤ E
  hF : 1 ≤ F

/-- `fp_bits.hpp` l.51-59. -/
def binary32 : Fmt := ⟨8, 23, by decide, by decide⟩
/-- `fp_bits.hpp` l.61-69. -/
def binary64 : Fmt := ⟨11, 52, by decide, by decide⟩

namespace Fmt
variable (f : Fmt)

/-- Exponent bias (`fp_bits.hpp` l.141). -/
def bias : ℕ := 2 ^ (f.E - 1) - 1
/-- A bit pattern of the format. -/
def Valid (x : ℕ) : Prop := x < 2 ^ (f.E + f.F + 1)
/-- Sign bit. -/
def sgn (x : ℕ) : Bool := decide (2 ^ (f.E + f.F) ≤ x)
/-- Pattern without its sign bit. -/
def mag (x : ℕ) : ℕ := x % 2 ^ (f.E + f.F)
/-- Biased exponent field. -/
def bexp (x : ℕ) : ℕ := f.mag x / 2 ^ f.F
/-- Fraction field. -/
def frac (x : ℕ) : ℕ := x % 2 ^ f.F
/-- Magnitude pattern of infinity: exponent field all ones, fraction zero. -/
def infMag : ℕ := (2 ^ f.E - 1) * 2 ^ f.F

/-- Finite datum: the exponent field is not all ones. -/
def Finite (x : ℕ) : Prop := f.Valid x ∧ f.bexp x ≠ 2 ^ f.E - 1
/-- NaN: exponent field all ones and non-zero fraction. -/
def IsNaN (x : ℕ) : Prop := f.Valid x ∧ f.bexp x = 2 ^ f.E - 1 ∧ f.frac x ≠ 0
/-- Infinity: exponent field all ones and zero fraction. -/
def IsInf (x : ℕ) : Prop := f.Valid x ∧ f.bexp x = 2 ^ f.E - 1 ∧ f.frac x = 0

instance (x : ℕ) : Decidable (f.Valid x) := by unfold Valid; infer_instance
instance (x : ℕ) : Decidable (f.Finite x) := by unfold Finite; infer_instance
instance (x : ℕ) : Decidable (f.IsNaN x) := by unfold IsNaN; infer_instance
instance (x : ℕ) : Decidable (f.IsInf x) := by unfold IsInf; infer_instance

/-- Numerical value of a finite datum (IEEE 754-2019 §3.4): with biased exponent `e` and fraction `m`,
`(-1)^s · 2^(e-bias) · (1 + m/2^F)` for `e ≠ 0`, and `(-1)^s · 2^(1-bias) · (m/2^F)` for `e = 0`. -/
noncomputable def val (x : ℕ) : ℝ :=
  (if f.sgn x then -1 else 1) *
    (if f.bexp x = 0 then (2 : ℝ) ^ (1 - (f.bias : ℤ)) * ((f.frac x : ℝ) / 2 ^ f.F)
     else (2 : ℝ) ^ ((f.bexp x : ℤ) - (f.bias : ℤ)) * (1 + (f.frac x : ℝ) / 2 ^ f.F))

/-- Extended numerical value: infinities are `±∞` (meaningful for non-NaN data only). -/
noncomputable def xval (x : ℕ) : EReal :=
  if f.bexp x = 2 ^ f.E - 1 then (if f.sgn x then ⊥ else ⊤) else ((f.val x : ℝ) : EReal)

/-- Largest finite number `2^emax · (2 - 2^(-F))`, `emax = bias`. -/
noncomputable def maxFin : ℝ := (2 : ℝ) ^ (f.bias : ℤ) * (2 - (2 : ℝ) ^ (-(f.F : ℤ)))
/-- Least normal number `2^(1-bias)`. -/
noncomputable def minNormal : ℝ := (2 : ℝ) ^ (1 - (f.bias : ℤ))
/-- Least positive (subnormal) number. -/
noncomputable def minSub : ℝ := (2 : ℝ) ^ (1 - (f.bias : ℤ) - (f.F : ℤ))

/-- The pattern of `±∞`. -/
def inf (s : Bool) : ℕ := (if s then 2 ^ (f.E + f.F) else 0) + f.infMag
/-- The pattern of `±0`. -/
def zero (s : Bool) : ℕ := if s then 2 ^ (f.E + f.F) else 0
/-- Canonical quiet NaN. -/
def qnan : ℕ := f.infMag + 2 ^ (f.F - 1)

end Fmt

/-- The four rounding directions of `<cfenv>` (`FE_TONEAREST`, `FE_TOWARDZERO`, `FE_DOWNWARD`, `FE_UPWARD`). -/
inductive Mode where
  | nearest | zero | down | up
  deriving DecidableEq, Repr

namespace Fmt
variable (f : Fmt)

/-- `b` is a finite datum nearest to `v`; on a tie its last fraction bit is zero. -/
structure IsNearest (v : ℝ) (b : ℕ) : Prop where
  finite : f.Finite b
  best : ∀ c, f.Finite c → |f.val b - v| ≤ |f.val c - v|
  ties_even : ∀ c, f.Finite c → |f.val b - v| = |f.val c - v| → f.val c ≠ f.val b → b % 2 = 0

/-- `b` is the greatest finite datum not above `v`. -/
structure IsGreatestBelow (v : ℝ) (b : ℕ) : Prop where
  finite : f.Finite b
  le : f.val b ≤ v
  greatest : ∀ c, f.Finite c → f.val c ≤ v → f.val c ≤ f.val b

/-- `b` is the least finite datum not below `v`. -/
structure IsLeastAbove (v : ℝ) (b : ℕ) : Prop where
  finite : f.Finite b
  ge : v ≤ f.val b
  least : ∀ c, f.Finite c → v ≤ f.val c → f.val b ≤ f.val c

/-- IEEE 754-2019 §4.3 rounding, without the sign-of-zero rule. -/
def RoundValue (m : Mode) (v : ℝ) (b : ℕ) : Prop :=
  match m with
  | .nearest =>
      -- overflow threshold: half an ulp beyond the largest finite number
      if (2 : ℝ) ^ (f.bias : ℤ) * (2 - (2 : ℝ) ^ (-(f.F : ℤ) - 1)) ≤ v then b = f.inf false
      else if v ≤ -((2 : ℝ) ^ (f.bias : ℤ) * (2 - (2 : ℝ) ^ (-(f.F : ℤ) - 1))) then b = f.inf true
      else f.IsNearest v b
  | .down => if v < -f.maxFin then b = f.inf true else f.IsGreatestBelow v b
  | .up => if f.maxFin < v then b = f.inf false else f.IsLeastAbove v b
  | .zero => if 0 ≤ v then f.IsGreatestBelow v b else f.IsLeastAbove v b

/-- `b` is the real number `v` correctly rounded in mode `m`.  A result has the sign of `v`; if `v` is
exactly zero its sign is `zs` (IEEE 754-2019 §6.3 lets the operation choose). -/
structure RoundsTo (m : Mode) (zs : Bool) (v : ℝ) (b : ℕ) : Prop where
  valid : f.Valid b
  value : f.RoundValue m v b
  sign : f.sgn b = if v = 0 then zs else decide (v < 0)

end Fmt
end Verif
