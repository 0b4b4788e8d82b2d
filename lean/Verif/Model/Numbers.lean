import Verif.Model.Dyadic

/-!
# Model of `math/numbers.hpp`

A decimal literal with suffix `L` denotes a `long double`: the decimal rounded to nearest in the format of `long double` (what GCC and Clang do;
the standard leaves the choice between the two neighbours open).  `static_cast<Real>` rounds it a second time, in constant evaluation and hence to
nearest.  The format of `long double` is a parameter: the 80-bit x87 format, `double` (MSVC) or IEEE binary128 (AArch64 Linux).  The explicit integer
bit of the x87 format is not represented: a normal number of 64 significant bits is stored like the other formats.
-/

namespace Verif
open Fmt

/-- the values of the x87 80-bit format, `internal/support/fp/fp_bits.hpp` l.81-91 (without the explicit integer bit) -/
def x87 : Fmt := ⟨15, 63, by decide, by decide⟩
/-- IEEE binary128 -/
def quad : Fmt := ⟨15, 112, by decide, by decide⟩

namespace CC.Numbers

/-- `static_cast<Real>(N e-33 L)` with `long double` in format `ld` and `Real` in format `f` -/
def constant (N : ℕ) (ld f : Fmt) : ℕ := f.hcvt ld .nearest (ld.roundQ .nearest false (N * ld.uscale) (10 ^ 33))

/-- numbers.hpp l.25-26 -/
def e_v (ld f : Fmt) : ℕ := constant 2718281828459045235360287471352662 ld f
/-- numbers.hpp l.28-29 -/
def log2e_v (ld f : Fmt) : ℕ := constant 1442695040888963407359924681001892 ld f
/-- numbers.hpp l.31-32 -/
def log10e_v (ld f : Fmt) : ℕ := constant 434294481903251827651128918916605 ld f
/-- numbers.hpp l.34-35 -/
def pi_v (ld f : Fmt) : ℕ := constant 3141592653589793238462643383279502 ld f
/-- numbers.hpp l.37-38 -/
def inv_pi_v (ld f : Fmt) : ℕ := constant 318309886183790671537767526745028 ld f
/-- numbers.hpp l.40-41 -/
def inv_sqrtpi_v (ld f : Fmt) : ℕ := constant 564189583547756286948079451560772 ld f
/-- numbers.hpp l.43-44 -/
def ln2_v (ld f : Fmt) : ℕ := constant 693147180559945309417232121458176 ld f
/-- numbers.hpp l.46-47 -/
def ln10_v (ld f : Fmt) : ℕ := constant 2302585092994045684017991454684364 ld f
/-- numbers.hpp l.49-50 -/
def sqrt2_v (ld f : Fmt) : ℕ := constant 1414213562373095048801688724209698 ld f
/-- numbers.hpp l.52-53 -/
def sqrt3_v (ld f : Fmt) : ℕ := constant 1732050807568877293527446341505872 ld f
/-- numbers.hpp l.55-56 -/
def inv_sqrt3_v (ld f : Fmt) : ℕ := constant 577350269189625764509148780501957 ld f
/-- numbers.hpp l.58-59 -/
def egamma_v (ld f : Fmt) : ℕ := constant 577215664901532860606512090082402 ld f
/-- numbers.hpp l.61-62 -/
def phi_v (ld f : Fmt) : ℕ := constant 1618033988749894848204586834365638 ld f

end CC.Numbers
end Verif
