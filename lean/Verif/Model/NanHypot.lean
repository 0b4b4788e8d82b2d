import Verif.Model.Sqrt
import Verif.Model.Basic

/-!
# Models of `nan`, `nanf` and `hypot`

A C string is the list of its (non-zero) character codes, without the terminator; `none` is the null pointer.
-/

namespace Verif.CC

/-- `internal/support/helpers/digit_to_int.hpp` l.15-21 -/
def digitToInt (c : ℕ) : ℕ :=
  if 48 ≤ c ∧ c ≤ 57 then c - 48
  else if 65 ≤ c ∧ c ≤ 70 then c - 65 + 10
  else if 97 ≤ c ∧ c ≤ 102 then c - 97 + 10
  else 0

/-- `math/basic/impl/nan_double_impl.hpp` l.70-75, 79-84: the accumulation loop; `W` is the word width, `lim` the index from which
the value is reduced modulo `md` (double: 15, `1e18`; float: 7, `1e8`).  In the decimal loop of the double version the digit is
`arg[i] - '0'`, which is the same number because every character has been checked to be a decimal digit. -/
def nanLoop (W lim md base : ℕ) : ℕ → ℕ → List ℕ → ℕ
  | _, acc, [] => acc
  | i, acc, c :: cs =>
    let a := (acc * base) % 2 ^ W
    let a := (a + digitToInt c % 256) % 2 ^ W
    let a := if i ≥ lim then a % md else a
    nanLoop W lim md base (i + 1) a cs

/-- `math/basic/impl/nan_double_impl.hpp` l.49-90, `nan_float_impl.hpp` l.40-81 (not `_MSC_VER`) -/
def nanParse (f : Fmt) (W lim md : ℕ) (s : List ℕ) : ℕ :=
  match s with
  | 48 :: 120 :: t => nanLoop W lim md 16 0 0 t ||| f.qnan
  | 48 :: 88 :: t => nanLoop W lim md 16 0 0 t ||| f.qnan
  | s => if s.any (fun c => decide (c < 48) || decide (c > 57)) then f.qnan else nanLoop W lim md 10 0 0 s ||| f.qnan

/-- `math/basic/impl/nan_double_impl.hpp` l.25-91 -/
def nan (s : Option (List ℕ)) : Option ℕ :=
  match s with
  | none => some binary64.qnan
  | some [] => some binary64.qnan
  | some s => some (nanParse binary64 64 15 (10 ^ 18) s)

/-- `math/basic/impl/nan_float_impl.hpp` l.21-82; dereferencing a null `arg` (l.40) is undefined: `none` -/
def nanf (s : Option (List ℕ)) : Option ℕ :=
  match s with
  | none => none
  | some s => some (nanParse binary32 32 7 (10 ^ 8) s)

variable (f : Fmt)

/-- `internal/math/generic/func/power/impl/hypot_impl.hpp` l.34-47 after the special cases -/
def hypotCore (m : Mode) (x y : ℕ) : ℕ :=
  let ratio := f.hdiv m y x
  f.hmul m x (sqrt f m (f.hadd m (oneLit f false) (f.hmul m ratio ratio)))

/-- `internal/math/generic/func/power/impl/hypot_impl.hpp` l.25-48; `ccm::sqrt` is the generic `sqrt_gen` (C19) -/
def hypot (m : Mode) (x y : ℕ) : ℕ :=
  if isinf f x || isinf f y then FPBits.inf f false
  else if isnan f x then f.hadd m x y
  else if isnan f y then f.hadd m x y
  else
    let x := abs f x
    let y := abs f y
    if f.heq x (f.zero false) && f.heq y (f.zero false) then f.zero false
    else if f.hgt y x then hypotCore f m y x else hypotCore f m x y

/-- `math/power/hypot.hpp` l.50-57 -/
def hypot3 (m : Mode) (x y z : ℕ) : ℕ := hypot f m (hypot f m x y) z

end Verif.CC
