import Mathlib.Data.Nat.Bitwise
import Mathlib.Data.Int.Basic
import Mathlib.Data.Nat.Log

/-!
# Integer helpers: `internal/support/bits.hpp`, `internal/support/math_support.hpp` and the integer part of `ext/`

Unsigned words of `N` value bits are natural numbers below `2^N`.  Where an argument may be signed the model uses mathematical
integers together with a description `ITy` of the C++ type.  `none` is undefined behaviour.
The modelled branches are the portable ones; the compiler builtins (`__builtin_ctz` and so on) are not modelled.
-/

namespace Verif

/-- A C++ integer type: number of bits and signedness (two's complement). -/
structure ITy where
  N : ℕ
  signed : Bool

namespace ITy

/-- `std::numeric_limits<T>::min()` -/
def min (t : ITy) : ℤ := if t.signed then -2 ^ (t.N - 1) else 0

/-- `std::numeric_limits<T>::max()` -/
def max (t : ITy) : ℤ := if t.signed then 2 ^ (t.N - 1) - 1 else 2 ^ t.N - 1

/-- `z` is a value of the type -/
def Has (t : ITy) (z : ℤ) : Prop := t.min ≤ z ∧ z ≤ t.max

instance (t : ITy) (z : ℤ) : Decidable (t.Has z) := inferInstanceAs (Decidable (_ ∧ _))

/-- conversion to the type (modulo `2^N`; C++20 rule, and the behaviour of every C++17 compiler) -/
def conv (t : ITy) (z : ℤ) : ℤ := if t.signed then z.bmod (2 ^ t.N) else z % 2 ^ t.N

/-- integral promotion with a 32-bit `int` -/
def promote (t : ITy) : ITy := if t.N < 32 then ⟨32, true⟩ else t

/-- result of an arithmetic operator computed in this type, when the mathematical result is `z` -/
def arith (t : ITy) (z : ℤ) : Option ℤ := if t.signed then (if t.Has z then some z else none) else some (z % 2 ^ t.N)

/-- object representation of a value -/
def repr (t : ITy) (z : ℤ) : ℕ := (z % 2 ^ t.N).toNat

/-- the operator `&` on two values of the type -/
def band (t : ITy) (a b : ℤ) : ℤ := t.conv ((t.repr a &&& t.repr b : ℕ) : ℤ)

/-- the operator `~` -/
def bnot (t : ITy) (a : ℤ) : ℤ := t.conv (-a - 1)

/-- the unsigned type of the same width -/
def toUnsigned (t : ITy) : ITy := ⟨t.N, false⟩

end ITy

namespace CC

/-! ### `internal/support/bits.hpp` -/

/-- l.96-97; `x - 1` is only used when `x ≠ 0` -/
def hasSingleBit (x : ℕ) : Bool := x != 0 && (x &&& (x - 1)) == 0

/-- l.158-181 (not MSVC): `cnt` is an `int`; `none` is the overflow of `cnt *= -1` at `INT_MIN`, which needs `N ∤ 2^32` -/
def rotr (N t : ℕ) (cnt : ℤ) : Option ℕ :=
  if (cnt % 2 ^ 32).toNat % N = 0 then some t
  else if cnt < 0 then
    if cnt = -2 ^ 31 then none
    else
      let c := (-cnt).toNat
      some (((t <<< (c % N)) ||| (t >>> (N - c % N))) % 2 ^ N)
  else
    let c := cnt.toNat
    some (((t >>> (c % N)) ||| (t <<< (N - c % N))) % 2 ^ N)

/-- l.188-200: `rotr(t, -cnt)`; `none` also for the overflow of `-cnt` -/
def rotl (N t : ℕ) (cnt : ℤ) : Option ℕ := if cnt = -2 ^ 31 then none else rotr N t (-cnt)

/-- l.237-246: the `while (shift)` loop; the first argument bounds the number of iterations -/
def ctzLoop : ℕ → ℕ → ℕ → ℕ → ℕ → ℕ
  | 0, _, _, _, z => z
  | n + 1, v, shift, mask, z =>
    if shift = 0 then z
    else
      let hit := (v &&& mask) = 0
      let v := if hit then v >>> shift else v
      let z := if hit then z ||| shift else z
      let shift := shift >>> 1
      ctzLoop n v shift (mask >>> shift) z

/-- l.229-248 and `ctz.hpp` l.25-44 (`generic_ctz`, whose callers handle zero themselves) -/
def countrZero (N v : ℕ) : ℕ :=
  if v = 0 then N
  else if v &&& 1 ≠ 0 then 0
  else ctzLoop N v (N >>> 1) ((2 ^ N - 1) >>> (N >>> 1)) 0

/-- l.279-287 (and the identical loop l.291-299) -/
def clzLoop : ℕ → ℕ → ℕ → ℕ → ℕ
  | 0, _, _, z => z
  | n + 1, v, shift, z =>
    if shift = 0 then z
    else
      let tmp := v >>> shift
      if tmp ≠ 0 then clzLoop n tmp (shift >>> 1) z else clzLoop n v (shift >>> 1) (z ||| shift)

/-- l.272-302 -/
def countlZero (N v : ℕ) : ℕ := if v = 0 then N else clzLoop N v (N >>> 1) 0

/-- l.321-322 -/
def countrOne (N v : ℕ) : ℕ := countrZero N (2 ^ N - 1 - v)

/-- l.325-326 -/
def countlOne (N v : ℕ) : ℕ := if v ≠ 2 ^ N - 1 then countlZero N (2 ^ N - 1 - v) else N

/-- l.329-330 -/
def bitWidthU (N v : ℕ) : ℕ := N - countlZero N v

/-- l.339-353: a shift by the width of the type (or by 32 for the narrow types) is undefined -/
def bitCeil (N x : ℕ) : Option ℕ :=
  if x < 2 then some 1
  else
    let n := N - countlZero N (x - 1)
    if 32 ≤ N then (if n < N then some (1 <<< n) else none)
    else
      let extra := 32 - N
      if n + extra < 32 then some (((1 <<< (n + extra)) >>> extra) % 2 ^ N) else none

/-- l.363-381: the portable loop -/
def popcount (N v : ℕ) : ℕ := (List.range N).foldl (fun c i => if (v >>> i) &&& 1 ≠ 0 then c + 1 else c) 0

/-- l.421-427: fallback for `unsigned char` -/
def popcount8 (n : ℕ) : ℕ :=
  let r := (n * 0x08040201) % 2 ^ 32
  ((((r >>> 3) &&& 0x11111111) * 0x11111111) % 2 ^ 32) >>> 28

/-- l.429-435: fallback for `unsigned short`; `-` and `+` bind tighter than `&`; the arithmetic is in `int`, and every
intermediate value is nonnegative -/
def popcount16 (n : ℕ) : ℕ :=
  let n := (n - (n >>> 1)) &&& 0x5555
  let n := ((n &&& 0x3333) + (n >>> 2)) &&& 0x3333
  let n := (n + (n >>> 4)) &&& 0x0F0F
  (n * 0x0101) >>> 16

/-- l.437-446: fallback for a 32-bit `unsigned int` -/
def popcount32 (n : ℕ) : ℕ :=
  let n := (n - (n >>> 1)) &&& 0x55555555
  let n := ((n &&& 0x33333333) + (n >>> 2)) &&& 0x33333333
  let n := (n + (n >>> 4)) &&& 0x0F0F0F0F
  ((n * 0x01010101) % 2 ^ 32) >>> 24

/-- l.470-476, 483-489: fallback for 64-bit `unsigned long` and for `unsigned long long`.  The subtraction cannot wrap because
`(n >> 1) & 0x55… ≤ n`. -/
def popcount64 (n : ℕ) : ℕ :=
  let n := n - ((n >>> 1) &&& 0x5555555555555555)
  let n := ((n &&& 0x3333333333333333) + ((n >>> 2) &&& 0x3333333333333333)) % 2 ^ 64
  let n := ((n + (n >>> 4)) % 2 ^ 64) &&& 0x0F0F0F0F0F0F0F0F
  ((n * 0x0101010101010101) % 2 ^ 64) >>> 56

/-! ### `internal/support/math_support.hpp`: checked arithmetic (portable branches) -/

/-- l.30-57: the returned flag and the new content of `res` (`old` is its previous content) -/
def addOverflow (t : ITy) (a b old : ℤ) : Bool × ℤ :=
  let ua := t.repr a
  let ub := t.repr b
  let usum := (ua + ub) % 2 ^ t.N
  if t.signed then
    let signBit := 2 ^ (t.N - 1)
    let ov := (((2 ^ t.N - 1 - (ua ^^^ ub)) &&& (ua ^^^ usum)) &&& signBit) != 0
    (ov, if ov then old else t.conv usum)
  else (decide (usum < ua), usum)

/-- l.61-88 -/
def subOverflow (t : ITy) (a b old : ℤ) : Bool × ℤ :=
  let ua := t.repr a
  let ub := t.repr b
  let udiff := (ua + 2 ^ t.N - ub) % 2 ^ t.N
  if t.signed then
    let signBit := 2 ^ (t.N - 1)
    let ov := (((ua ^^^ ub) &&& (ua ^^^ udiff)) &&& signBit) != 0
    (ov, if ov then old else t.conv udiff)
  else (decide (ua < ub), udiff)

/-- l.97-118: sum and carry out -/
def addWithCarry (N a b c : ℕ) : ℕ × ℕ :=
  let r1 := addOverflow ⟨N, false⟩ a b 0
  let r2 := addOverflow ⟨N, false⟩ r1.2 c r1.2
  (r2.2.toNat, r1.1.toNat ||| r2.1.toNat)

/-- l.124-145: difference and borrow out -/
def subWithBorrow (N a b c : ℕ) : ℕ × ℕ :=
  let r1 := subOverflow ⟨N, false⟩ a b 0
  let r2 := subOverflow ⟨N, false⟩ r1.2 c r1.2
  (r2.2.toNat, r1.1.toNat ||| r2.1.toNat)

/-! ### `ext/` -/

/-- `ext/align.hpp` l.40-67, 97-99; the alignment is `2^k` (the `static_assert`s of l.42-43) -/
def alignUp (t : ITy) (k : ℕ) (v : ℤ) : Option ℤ := do
  let mask := t.conv (2 ^ k - 1)
  let p := t.promote
  let s ← p.arith (v + mask)
  pure (t.conv (p.band s (p.bnot mask)))

/-- `ext/align.hpp` l.68-86, 109-111 -/
def alignDown (t : ITy) (k : ℕ) (v : ℤ) : ℤ :=
  let mask := t.conv (2 ^ k - 1)
  let p := t.promote
  t.conv (p.band v (p.bnot mask))

/-- `ext/ceil_div.hpp` l.28-29; division by zero and the overflowing division are undefined -/
def ceilDiv (t : ITy) (a b : ℤ) : Option ℤ := do
  let p := t.promote
  let s ← p.arith (a + b)
  let s ← p.arith (s - 1)
  if b = 0 then none
  else
    let q ← p.arith (s.tdiv b)
    pure (t.conv q)

/-- `ext/ceil_div.hpp` l.46-51: `ccm::ext::safe::ceil_div` -/
def safeCeilDiv (t : ITy) (a b : ℤ) : Option ℤ := if b = 0 then some 0 else ceilDiv t a b

/-- `ext/is_power_of_two.hpp` l.27-28 (unsigned) and l.41-42 (signed; evaluated in the promoted type, short-circuit `&&`) -/
def isPowerOfTwo (t : ITy) (n : ℤ) : Option Bool :=
  if t.signed then
    if n = 0 then some false
    else do
      let p := t.promote
      let m ← p.arith (n - 1)
      pure (p.band n m == 0)
  else some (hasSingleBit n.toNat)

/-- `ext/is_power_of_two.hpp` l.76-81: `ccm::ext::safe::is_power_of_two` for signed types -/
def safeIsPowerOfTwo (t : ITy) (n : ℤ) : Bool := decide (n > 0) && hasSingleBit (t.repr n)

/-- `ext/abs_diff.hpp` l.25-26 -/
def absDiff (t : ITy) (a b : ℤ) : Option ℤ := do
  let p := t.promote
  if a > b then
    let d ← p.arith (a - b)
    pure (t.conv d)
  else
    let d ← p.arith (b - a)
    pure (t.conv d)

end CC
end Verif
