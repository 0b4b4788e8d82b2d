import Verif.Model.BigInt

/-!
# Model of `count_zeros`, `first_leading_zero`, … of `internal/types/big_int.hpp` for signed types

The unsigned versions are in `Verif/Model/BigInt.lean`; here `std::numeric_limits<T>::max()` is the largest value of the signed type.
-/

namespace Verif
namespace BI

/-- `std::numeric_limits<BigInt<Bits, true, Word>>::max()`, big_int.hpp l.779-784: all bits but the top one -/
def smax (w n : ℕ) : List ℕ := if n = 0 then [] else List.replicate (n - 1) (2 ^ w - 1) ++ [2 ^ (w - 1) - 1]

/-- l.1691-1693 `first_leading_zero` for a signed type -/
def sfirstLeadingZero (w : ℕ) (a : List ℕ) : ℕ := if eqB a (smax w a.length) then 0 else clo w a + 1

/-- l.1695-1697 `first_leading_one` for a signed type -/
def sfirstLeadingOne (w : ℕ) (a : List ℕ) : ℕ := sfirstLeadingZero w (bnot w a)

/-- l.1699-1701 `first_trailing_zero` for a signed type -/
def sfirstTrailingZero (w : ℕ) (a : List ℕ) : ℕ := if eqB a (smax w a.length) then 0 else ctz w (bnot w a) + 1

end BI
end Verif
