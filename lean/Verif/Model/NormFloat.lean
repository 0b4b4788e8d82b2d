import Verif.Model.Manip

/-!
# Model of the rest of `internal/types/normalized_float.hpp`: the constructor from fields, `cmp` and `mul2`

The record, the constructor from a floating-point number and the conversion back are in `Verif/Model/Manip.lean`.  The exponent is a `std::int32_t`:
an exponent that leaves its range is undefined behaviour, `none`.  The 80-bit format is not modelled.
-/

namespace Verif
namespace CC
namespace NormalizedFloat
variable (f : Fmt)

/-- `std::int32_t` holds the exponent -/
def int32 (e : ℤ) : Option ℤ := if -2 ^ 31 ≤ e ∧ e < 2 ^ 31 then some e else none

/-- `NormalizedFloat(Sign, std::int32_t, StorageType)`, `normalized_float.hpp` l.44-51 -/
def ofFields (s : Bool) (e : ℤ) (m : ℕ) : Option NormalizedFloat :=
  if m ≥ 1 <<< f.F then some ⟨e, m, s⟩
  else
    let shift := normShift f f.F m 0
    (int32 (e - shift)).map fun e' => ⟨e', m <<< shift, s⟩

/-- `cmp`, `normalized_float.hpp` l.57-70 -/
def cmp (a b : NormalizedFloat) : ℤ :=
  let result : ℤ := if a.sign then -1 else 1
  if a.sign ≠ b.sign then result
  else if a.exponent > b.exponent then result
  else if a.exponent = b.exponent then
    if a.mantissa > b.mantissa then result
    else if a.mantissa = b.mantissa then 0
    else -result
  else -result

/-- `mul2`, `normalized_float.hpp` l.72-77 -/
def mul2 (a : NormalizedFloat) (e : ℤ) : Option NormalizedFloat := (int32 (a.exponent + e)).map fun e' => { a with exponent := e' }

end NormalizedFloat
end CC
end Verif
