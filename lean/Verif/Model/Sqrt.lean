import Verif.Model.Fma

/-!
# Model of `internal/math/generic/func/power/sqrt_gen.hpp` (formats with a hidden bit)

`storage_type` has exactly `E+F+1` bits; additions and left shifts wrap modulo `2^(E+F+1)`.  The 80-bit routine
`bit80::sqrt_calc_80bits` (l.74-163) is not modelled.
-/

namespace Verif.CC
variable (f : Fmt)

/-- l.198-207, one loop iteration with `current_bit = c`; the state is `(r, y)` -/
def sqrtStep (S c : ℕ) (st : ℕ × ℕ) : ℕ × ℕ :=
  let r := (st.1 <<< 1) % S
  let tmp := ((st.2 <<< 1) % S + c) % S
  if r ≥ tmp then (r - tmp, (st.2 + c) % S) else (r, st.2)

/-- l.198-207, the loop: `current_bit` runs through `2^(n-1), …, 2, 1` -/
def sqrtLoop (S : ℕ) : ℕ → ℕ × ℕ → ℕ × ℕ
  | 0, st => st
  | n + 1, st => sqrtLoop S n (sqrtStep S (2 ^ n) st)

/-- l.42-48 `normalize`; `countl_zero(m) = (E+F+1) - bit_width(m)` -/
def sqrtNormalize (e : ℤ) (m : ℕ) : ℤ × ℕ :=
  let shift : ℤ := ((f.E + f.F + 1 : ℕ) - (bitWidth m : ℤ)) - ((f.E + f.F + 1 : ℕ) - 1 - (f.F : ℤ))
  (e - shift, (m <<< shift.toNat) % 2 ^ (f.E + f.F + 1))

/-- l.167-239 `sqrt_calc_bits` -/
def sqrtCalcBits (md : Mode) (x : ℕ) : ℕ :=
  let S := 2 ^ (f.E + f.F + 1)
  let one := 1 <<< f.F
  let e0 := FPBits.getExponent f x
  let m0 := FPBits.getMantissa f x
  let em := if FPBits.isSubnormal f x then sqrtNormalize f (e0 + 1) m0 else (e0, m0 ||| one)
  let em := if em.1 % 2 ≠ 0 then (em.1 - 1, (em.2 <<< 1) % S) else em
  let st := sqrtLoop S f.F (em.2 - one, one)
  let y := st.2
  let r := (st.1 <<< 2) % S
  let tmp := ((y <<< 2) % S + 1) % S
  let rb := decide (r ≥ tmp)
  let r := if rb then r - tmp else r
  let e := em.1 / 2 + f.bias
  let y := (y - one) ||| ((e.toNat <<< f.F) % S)
  let lsb := (y &&& 1) != 0
  match md with
  | .nearest => if rb && (lsb || r != 0) then y + 1 else y
  | .up => if rb || r != 0 then y + 1 else y
  | _ => y

/-- l.241-265 `sqrt_impl`, l.269-271 `sqrt_gen` -/
def sqrt (md : Mode) (x : ℕ) : ℕ :=
  if (x == FPBits.inf f false) || FPBits.isZero f x || FPBits.isNan f x then x
  else if FPBits.isNeg f x then f.hneg (FPBits.quietNaN f false 0)
  else sqrtCalcBits f md x

end Verif.CC
