import Verif.Model.FPBits
import Verif.Hw

/-!
# Small floating-point support code: `internal/support/fp/nearest_integer.hpp`, `internal/support/fp/except_value_utils.hpp`
-/

namespace Verif.CC
open Fmt
variable (f : Fmt)

/-- the literal `2^k` of the format (`0x1p24F`, `0x1.0p23F`, `0x1p53`, `0x1.0p52`, `0.5`, `1.0`) -/
def pow2 (s : Bool) (k : ℤ) : ℕ := f.pack s ((f.bias + k).toNat * 2 ^ f.F)

/-- nearest_integer.hpp l.23-45 (`float`: bound `2^24`, offset `2^23`) and l.47-69 (`double`: bound `2^53`, offset `2^52`), i.e. bound
`2^(F+1)` and offset `2^F`.  `ce` is `is_constant_evaluated()`; `m` is the rounding mode of the arithmetic. -/
def nearestInteger (ce : Bool) (m : Mode) (x : ℕ) : ℕ :=
  if f.hlt x (pow2 f false (f.F + 1)) && f.hgt x (pow2 f true (f.F + 1)) then
    let off := pow2 f false f.F
    let r := if f.hlt x (f.zero false) then f.hadd m (f.hsub m x off) off else f.hsub m (f.hadd m x off) off
    if !ce then
      let diff := f.hsub m x r
      if f.hgt diff (pow2 f false (-1)) then f.hadd m r (pow2 f false 0)
      else if f.hlt diff (pow2 f true (-1)) then f.hsub m r (pow2 f false 0)
      else r
    else r
  else x

/-- except_value_utils.hpp l.36-43 `Mapping` -/
structure Mapping where
  input : ℕ
  rz : ℕ
  up : ℕ
  down : ℕ
  near : ℕ

/-- l.53-60: `out_bits`, additions wrap in the storage type -/
def Mapping.out (r : Mapping) (m : Mode) : ℕ :=
  match m with
  | .up => (r.rz + r.up) % 2 ^ (f.E + f.F + 1)
  | .down => (r.rz + r.down) % 2 ^ (f.E + f.F + 1)
  | .nearest => (r.rz + r.near) % 2 ^ (f.E + f.F + 1)
  | .zero => r.rz

/-- except_value_utils.hpp l.47-65 `lookup` -/
def lookup (m : Mode) : List Mapping → ℕ → Option ℕ
  | [], _ => none
  | r :: rs, x => if x = r.input then some (r.out f m) else lookup m rs x

/-- l.73-92: `out_bits` of `lookup_odd` -/
def Mapping.outOdd (r : Mapping) (m : Mode) (sign : Bool) : ℕ :=
  match m with
  | .up => if sign then (r.rz + r.down) % 2 ^ (f.E + f.F + 1) else (r.rz + r.up) % 2 ^ (f.E + f.F + 1)
  | .down => if sign then (r.rz + r.up) % 2 ^ (f.E + f.F + 1) else (r.rz + r.down) % 2 ^ (f.E + f.F + 1)
  | .nearest => (r.rz + r.near) % 2 ^ (f.E + f.F + 1)
  | .zero => r.rz

/-- except_value_utils.hpp l.67-100 `lookup_odd` -/
def lookupOdd (m : Mode) : List Mapping → ℕ → Bool → Option ℕ
  | [], _, _ => none
  | r :: rs, xabs, sign =>
    if xabs = r.input then
      let result := r.outOdd f m sign
      some (if sign then f.hneg result else result)
    else lookupOdd m rs xabs sign

/-- except_value_utils.hpp l.104-111; `ce` is `is_constant_evaluated()` -/
def roundSlightlyDown (ce : Bool) (m : Mode) (v : ℕ) : ℕ := if ce then v else f.hsub m v (FPBits.minNormal f false)

/-- except_value_utils.hpp l.114-121 -/
def roundSlightlyUp (ce : Bool) (m : Mode) (v : ℕ) : ℕ := if ce then v else f.hadd m v (FPBits.minNormal f false)

end Verif.CC
