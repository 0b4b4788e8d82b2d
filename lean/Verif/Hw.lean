import Verif.Lemmas.Round

/-!
# The C++ built-in floating-point operators

`+ - * /`, comparisons and conversions of `float`/`double` are not ccmath code; they are modelled here as
IEEE 754 operations: exact result, one rounding in the active mode.  Every operation is computable
(integer arithmetic in units of the least subnormal) and is *proved* in `Lemmas/HwSpec.lean` to meet the
specification `Fmt.RoundsTo` of `Verif/Fmt.lean`.  NaN payloads are not modelled: a NaN result is `qnan`.
-/

namespace Verif
namespace Fmt
variable (f : Fmt)

/-- round the magnitude `N/D` units, unbounded exponent -/
def roundMag (k : Kind) (N D : ℕ) : ℕ :=
  let n0 := f.floorIdx (N / D)
  let lo := f.umag n0
  match k with
  | .trunc => n0
  | .away => if N = lo * D then n0 else n0 + 1
  | .nearest =>
      if 2 * N < (2 * lo + 2 ^ f.gk n0) * D then n0
      else if 2 * N = (2 * lo + 2 ^ f.gk n0) * D then n0 + n0 % 2
      else n0 + 1

/-- round `±N/D` units to a bit pattern -/
def roundQ (m : Mode) (s : Bool) (N D : ℕ) : ℕ :=
  f.pack s (f.cap (kind m s) (f.roundMag (kind m s) N D))

/-- NaN test on patterns -/
def nanB (x : ℕ) : Bool := decide (f.infMag < f.mag x)
/-- infinity test on patterns -/
def infB (x : ℕ) : Bool := decide (f.mag x = f.infMag)
/-- zero test on patterns -/
def zeroB (x : ℕ) : Bool := decide (f.mag x = 0)

/-- signed integer value in units of the least subnormal -/
def ival (x : ℕ) : ℤ := if f.sgn x then -(f.umag (f.mag x) : ℤ) else (f.umag (f.mag x) : ℤ)

/-- unary minus: flips the sign bit -/
def hneg (x : ℕ) : ℕ := f.pack (!f.sgn x) (f.mag x)

/-- sign of an exact zero sum -/
def zeroSign (m : Mode) (a b : Bool) : Bool := if a = b then a else decide (m = .down)

/-- `x + y` -/
def hadd (m : Mode) (x y : ℕ) : ℕ :=
  if f.nanB x || f.nanB y then f.qnan
  else if f.infB x then (if f.infB y && (f.sgn x != f.sgn y) then f.qnan else x)
  else if f.infB y then y
  else
    let z := f.ival x + f.ival y
    if z = 0 then f.zero (zeroSign m (f.sgn x) (f.sgn y))
    else f.roundQ m (decide (z < 0)) z.natAbs 1

/-- `x - y` -/
def hsub (m : Mode) (x y : ℕ) : ℕ := f.hadd m x (f.hneg y)

/-- scale between products of units and units: `2^(bias+F-1)` -/
def uscale : ℕ := 2 ^ (f.bias + f.F - 1)

/-- `x * y` -/
def hmul (m : Mode) (x y : ℕ) : ℕ :=
  let s := xor (f.sgn x) (f.sgn y)
  if f.nanB x || f.nanB y then f.qnan
  else if f.infB x then (if f.zeroB y then f.qnan else f.inf s)
  else if f.infB y then (if f.zeroB x then f.qnan else f.inf s)
  else f.roundQ m s (f.umag (f.mag x) * f.umag (f.mag y)) f.uscale

/-- `x / y` -/
def hdiv (m : Mode) (x y : ℕ) : ℕ :=
  let s := xor (f.sgn x) (f.sgn y)
  if f.nanB x || f.nanB y then f.qnan
  else if f.infB x then (if f.infB y then f.qnan else f.inf s)
  else if f.infB y then f.zero s
  else if f.zeroB y then (if f.zeroB x then f.qnan else f.inf s)
  else f.roundQ m s (f.umag (f.mag x) * f.uscale) (f.umag (f.mag y))

/-- order key: signed magnitude pattern -/
def key (x : ℕ) : ℤ := if f.sgn x then -(f.mag x : ℤ) else (f.mag x : ℤ)

/-- `x < y` -/
def hlt (x y : ℕ) : Bool := !f.nanB x && !f.nanB y && decide (f.key x < f.key y)
/-- `x <= y` -/
def hle (x y : ℕ) : Bool := !f.nanB x && !f.nanB y && decide (f.key x ≤ f.key y)
/-- `x == y` -/
def heq (x y : ℕ) : Bool := !f.nanB x && !f.nanB y && decide (f.key x = f.key y)
/-- `x > y` -/
def hgt (x y : ℕ) : Bool := f.hlt y x
/-- `x >= y` -/
def hge (x y : ℕ) : Bool := f.hle y x

/-- conversion of an integer (e.g. `T(-1)`, `static_cast<double>(k)`), rounded in mode `m`; `0` gives `+0` -/
def ofInt (m : Mode) (z : ℤ) : ℕ := f.roundQ m (decide (z < 0)) (z.natAbs * f.uscale) 1

end Fmt
end Verif
