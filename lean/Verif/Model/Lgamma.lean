import Verif.Model.Gamma
import Verif.Model.Log

/-!
# lgamma: `math/misc/impl/lgamma_double_impl.hpp`, `lgamma_impl.hpp`

`ccm::log` and `ccm::sin` are the functions of Model/Log and Model/Trig (constant evaluation). Raising floating-point exceptions and setting `errno` are not modelled.
-/

namespace Verif.CC
open Fmt

/-- lgamma_double_impl.hpp l.37-38 `log_abs` -/
def logAbs (md : Mode) (x : ℕ) : ℕ := logDouble md (abs binary64 x)

/-- lgamma_double_impl.hpp l.40-46 `stirling`. `0x3FC5555555555555` is `0x1.5555555555555p-3`, `0xBF86C16C16C16C17` is `-0x1.6c16c16c16c17p-7`, `0x3F800A01A01A01A1` is
`0x1.00a01a01a01a1p-7` and `0x400921FB54442D18` is `pi_v<double>` -/
def stirling (md : Mode) (x : ℕ) : ℕ :=
  let mul := binary64.hmul md
  let add := binary64.hadd md
  let sub := binary64.hsub md
  let invX := binary64.hdiv md 0x3FF0000000000000 x
  let invX2 := mul invX invX
  let corr := mul invX (add 0x3FC5555555555555 (mul invX2 (add 0xBF86C16C16C16C17 (mul invX2 0x3F800A01A01A01A1))))
  add (add (sub (mul (sub x 0x3FE0000000000000) (logDouble md x)) x) (mul 0x3FE0000000000000 (logDouble md (mul 0x4000000000000000 0x400921FB54442D18)))) corr

/-- lgamma_double_impl.hpp l.48-53 `log_gamma_reduce` -/
def logGammaReduce (ce fused : Bool) (md : Mode) (xd : ℕ) : Option ℕ :=
  (gammaReduce ce fused md xd).map fun p => binary64.hadd md (logDouble md p.1) (logAbs md p.2)

/-- lgamma_double_impl.hpp l.55-61: the sum of `positive_lfactorial` after `n` iterations, the next of which adds the logarithm of `n + 2` -/
def lfactLoop (md : Mode) : ℕ → ℕ
  | 0 => 0
  | n + 1 => binary64.hadd md (lfactLoop md n) (logDouble md (binary64.ofInt md ((n : ℤ) + 2)))

/-- lgamma_double_impl.hpp l.55-61 `positive_lfactorial` -/
def positiveLfactorial (md : Mode) (k : ℤ) : ℕ := if k ≤ 2 then 0 else lfactLoop md (k - 2).toNat

/-- lgamma_double_impl.hpp l.65-120: the body of `lgamma_double_impl` with the recursive call of l.116 replaced by `self`; `none` is undefined behaviour (conversion to
`int32` out of range) -/
def lgammaStep (ce fused : Bool) (md : Mode) (self : ℕ → Option ℕ) (x : ℕ) : Option ℕ :=
  if FPBits.isNan binary64 x then
    if FPBits.isSignalingNan binary64 x then some (FPBits.quietNaN binary64 false 0) else some x
  else if FPBits.isInf binary64 x then some (FPBits.inf binary64 false)
  else if FPBits.isZero binary64 x then some (FPBits.inf binary64 false)
  else
    let rest : Unit → Option ℕ := fun _ =>
      if binary64.hle (abs binary64 x) 0x3CA0000000000000 then some (binary64.hneg (logAbs md x))
      else if binary64.hge x 0x4020000000000000 then some (stirling md x)
      else if binary64.hlt x 0 then do
        let s ← sincosEval true ce fused md (binary64.hmul md 0x400921FB54442D18 x)
        let g ← self (binary64.hneg x)
        some (binary64.hsub md (binary64.hsub md (binary64.hsub md (logDouble md 0x400921FB54442D18) (logAbs md x)) (logAbs md s)) g)
      else logGammaReduce ce fused md x
    if isInteger x then
      if binary64.hle x 0 then some (FPBits.inf binary64 false)
      else
        match toInt32 binary64 (floor binary64 md x) with
        | none => none
        | some k => if k ≤ 170 then some (positiveLfactorial md k) else rest ()
    else rest ()

/-- lgamma_double_impl.hpp l.65-120 `lgamma_double_impl`. The recursive call is made with a positive argument for negative arguments only, so its own recursive call is
never reached: two levels are enough (`lgammaDouble_step` in Props/Lgamma proves the recursive equation of the code) -/
def lgammaDouble (ce fused : Bool) (md : Mode) (x : ℕ) : Option ℕ :=
  lgammaStep ce fused md (lgammaStep ce fused md fun _ => none) x

/-- lgamma_double_impl.hpp l.122-123 `lgamma_float_impl` -/
def lgammaFloat (ce fused : Bool) (md : Mode) (x : ℕ) : Option ℕ :=
  (lgammaDouble ce fused md (binary64.hcvt binary32 md x)).map fun r => binary32.hcvt binary64 md r

end Verif.CC
