import Verif.Model.Fma

/-!
# Error-free transformations (internal/types/double_double.hpp, internal/support/math_support.hpp)

Every `+ - *` is one rounded operation in the active mode `m`: contraction of `a*b + c` into a fused operation by the compiler
(`-ffp-contract=fast`) is *not* modelled; ccmath's own build passes no such flag, but clang contracts within one expression by default, so
the theorems about `exact_mult` (l.86-89 write `as.hi * bs.hi - r.hi` in one expression) assume `-ffp-contract=off`.
-/

namespace Verif
namespace CC
open Fmt
variable (f : Fmt)

/-- internal/types/number_pair.hpp `NumberPair<T>` -/
structure Pair where
  lo : ℕ
  hi : ℕ
deriving DecidableEq, Repr

/-- double_double.hpp l.42-49 `exact_add`; math_support.hpp l.209-215 `fast_two_sum` (same three operations) -/
def exactAdd (m : Mode) (a b : ℕ) : Pair :=
  let hi := f.hadd m a b
  let t := f.hsub m hi a
  { lo := f.hsub m b t, hi := hi }

/-- math_support.hpp l.218-227 `two_sum` -/
def twoSum (m : Mode) (a b : ℕ) : Pair :=
  let s := f.hadd m a b
  let a' := f.hsub m s b
  let b' := f.hsub m s a'
  let da := f.hsub m a a'
  let db := f.hsub m b b'
  { lo := f.hadd m da db, hi := s }

/-- double_double.hpp l.67-77 `split` and math_support.hpp l.233-240 `veltkamp_split` (long double, `C = 2^32+1`), with the splitting constant
`C` as a parameter -/
def splitC (C : ℕ) (m : Mode) (a : ℕ) : Pair :=
  let t1 := f.hmul m C a
  let t2 := f.hsub m a t1
  let hi := f.hadd m t1 t2
  { lo := f.hsub m a hi, hi := hi }

/-- double_double.hpp l.71: the constant `0x1.0p27 + 1.0` (pattern of 134217729.0) -/
def splitConst : ℕ := 0x41A0000002000000

/-- double_double.hpp l.67-77 `split` -/
def split (m : Mode) (a : ℕ) : Pair := splitC binary64 splitConst m a

/-- double_double.hpp l.79-91 `exact_mult` (Dekker's product), the format and the splitting constant as parameters -/
def exactMultC (C : ℕ) (m : Mode) (a b : ℕ) : Pair :=
  let as := splitC f C m a
  let bs := splitC f C m b
  let hi := f.hmul m a b
  let t1 := f.hsub m (f.hmul m as.hi bs.hi) hi
  let t2 := f.hadd m (f.hmul m as.hi bs.lo) t1
  let t3 := f.hadd m (f.hmul m as.lo bs.hi) t2
  { lo := f.hadd m (f.hmul m as.lo bs.lo) t3, hi := hi }

/-- double_double.hpp l.79-91 `exact_mult` -/
def exactMult (m : Mode) (a b : ℕ) : Pair := exactMultC binary64 splitConst m a b

/-- double_double.hpp l.52-57 `add(DoubleDouble, DoubleDouble)` -/
def ddAdd (m : Mode) (a b : Pair) : Pair :=
  let r := exactAdd f m a.hi b.hi
  let lo := f.hadd m a.lo b.lo
  exactAdd f m r.hi (f.hadd m r.lo lo)

/-- double_double.hpp l.60-64 `add(DoubleDouble, double)` -/
def ddAddD (m : Mode) (a : Pair) (b : ℕ) : Pair :=
  let r := exactAdd f m a.hi b
  exactAdd f m r.hi (f.hadd m r.lo a.lo)

/-- double_double.hpp l.28-36 `exact_fma`: `generic_fma` (internal/support/fp/fma.hpp), the value part of the software fused multiply-add.  The
builtin branch l.32 is the IEEE operation, to which `C17_fma` proves the software one equal.  `none` as in `CC.fma`. -/
def exactFma (m : Mode) (x y z : ℕ) : Option ℕ := (CC.fma m x y z).map Prod.fst

/-- pow_impl.hpp l.126-131 `two_prod` -/
def twoProd (m : Mode) (a b : ℕ) : Option Pair := do
  let hi := binary64.hmul m a b
  let lo ← exactFma m a b (binary64.hneg hi)
  return { lo := lo, hi := hi }

/-- double_double.hpp l.93-98 `quick_mult(double, DoubleDouble)` -/
def quickMultD (m : Mode) (a : ℕ) (b : Pair) : Option Pair := do
  let r := exactMult m a b.hi
  let lo ← exactFma m a b.lo r.lo
  return { lo := lo, hi := r.hi }

/-- double_double.hpp l.100-107 `quick_mult(DoubleDouble, DoubleDouble)` -/
def quickMult (m : Mode) (a b : Pair) : Option Pair := do
  let r := exactMult m a.hi b.hi
  let t1 ← exactFma m a.hi b.lo r.lo
  let t2 ← exactFma m a.lo b.hi t1
  return { lo := t2, hi := r.hi }

end CC
end Verif
