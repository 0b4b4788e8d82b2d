import Verif.Model.Basic

/-!
# Rounding to integer: `math/nearest/*.hpp`, `internal/support/fp/directional_rounding_utils.hpp`,
`internal/math/runtime/func/detail/trunc_scalar.hpp`

`hm` is the rounding mode the hardware operators `+ -` run in.  `get_val()` (bit_cast) is the identity on
patterns.
-/

namespace Verif
namespace CC
variable (f : Fmt)

/-- `trunc`: `math/nearest/trunc.hpp` l.37-61 (constant evaluation) = `trunc_scalar.hpp` l.21-39 (run time)
= `internal/math/generic/func/nearest/trunc_gen.hpp` l.25-52 -/
def trunc (x : ℕ) : ℕ :=
  if FPBits.isInfOrNan f x then x
  else if f.heq x (f.zero false) then x
  else
    let exponent := FPBits.getExponent f x
    if exponent ≥ (f.F : ℤ) then x
    else if exponent ≤ -1 then FPBits.zero f (FPBits.isNeg f x)
    else
      let trimming := ((f.F : ℤ) - exponent).toNat
      FPBits.setMantissa f x ((FPBits.getMantissa f x >>> trimming) <<< trimming)

/-- `floor`: `math/nearest/floor.hpp` l.32-49, `trunc_scalar.hpp` l.42-49 -/
def floor (hm : Mode) (x : ℕ) : ℕ :=
  if isinf f x || f.heq x (f.zero false) || isnan f x then x
  else
    let truncated := trunc f x
    if f.heq truncated x || f.hgt x (f.zero false) then truncated
    else f.hsub hm truncated (oneLit f false)

/-- `ceil`: `math/nearest/ceil.hpp` l.33-50, `trunc_scalar.hpp` l.52-59 -/
def ceil (hm : Mode) (x : ℕ) : ℕ :=
  if isinf f x || f.heq x (f.zero false) || isnan f x then x
  else
    let truncated := trunc f x
    if f.heq truncated x || f.hlt x (f.zero false) then truncated
    else f.hadd hm truncated (oneLit f false)

/-- `rounding_mode`, `directional_rounding_utils.hpp` l.31-38 -/
inductive DMode where
  | tonearest | downward | upward | towardzero | tonearestfromzero
  deriving DecidableEq, Repr

/-- the `FE_*` modes as values of `rounding_mode` -/
def DMode.ofMode : Mode → DMode
  | .nearest => .tonearest
  | .zero => .towardzero
  | .down => .downward
  | .up => .upward

/-- literals `T(2.0)`, `T(-2.0)` -/
def twoLit (s : Bool) : ℕ := f.pack s ((f.bias + 1) * 2 ^ f.F)

/-- `directional_round`, `directional_rounding_utils.hpp` l.42-122 -/
def directionalRound (hm : Mode) (d : DMode) (x : ℕ) : ℕ :=
  if FPBits.isInfOrNan f x || FPBits.isZero f x then x
  else
    let isNeg := FPBits.isNeg f x
    let exponent := FPBits.getExponent f x
    if exponent ≥ (f.F : ℤ) then x
    else if exponent ≤ -1 then
      match d with
      | .downward => if isNeg then oneLit f true else f.zero false
      | .upward => if isNeg then f.zero true else oneLit f false
      | .towardzero => if isNeg then f.zero true else f.zero false
      | .tonearestfromzero => if exponent < -1 then f.zero isNeg else oneLit f isNeg
      | .tonearest =>
          if exponent ≤ -2 || FPBits.getMantissa f x == 0 then f.zero isNeg else oneLit f isNeg
    else
      let trimming := ((f.F : ℤ) - exponent).toNat
      let newBits := FPBits.setMantissa f x ((FPBits.getMantissa f x >>> trimming) <<< trimming)
      let truncated := newBits
      if f.heq truncated x then x
      else
        let trimmed := FPBits.getMantissa f x &&& ((1 <<< trimming) - 1)
        let half := 1 <<< (trimming - 1)
        let odd := FPBits.getMantissa f newBits &&& (1 <<< trimming)
        let away := if isNeg then f.hsub hm truncated (oneLit f false) else f.hadd hm truncated (oneLit f false)
        match d with
        | .downward => if isNeg then f.hsub hm truncated (oneLit f false) else truncated
        | .upward => if isNeg then truncated else f.hadd hm truncated (oneLit f false)
        | .towardzero => truncated
        | .tonearestfromzero => if trimmed ≥ half then away else truncated
        | .tonearest =>
            if trimmed > half then away
            else if trimmed = half then
              if exponent = 0 then twoLit f isNeg
              else if odd ≠ 0 then away else truncated
            else truncated

/-- `round`: `math/nearest/round.hpp` l.32-48, `round_rt.hpp` l.25-36 -/
def round (hm : Mode) (x : ℕ) : ℕ :=
  if isinf f x || f.heq x (f.zero false) || isnan f x then x
  else directionalRound f hm .tonearestfromzero x

/-- `rint`: `math/nearest/rint.hpp` l.35-41, `rint_rt.hpp` l.24-39 (`m` = current mode, also the mode of the hardware) -/
def rint (m : Mode) (x : ℕ) : ℕ := directionalRound f m (DMode.ofMode m) x
/-- `nearbyint`: `math/nearest/nearbyint.hpp` l.35-41, `nearbyint_rt.hpp` l.23-30 -/
def nearbyint (m : Mode) (x : ℕ) : ℕ := directionalRound f m (DMode.ofMode m) x

end CC
end Verif
