import Verif.Model.IntUtil

/-!
# Wide integers: `internal/types/big_int.hpp`

An object `std::array<word, N>` with a `w`-bit word is the list of its words, least significant first, each below `2^w`.  All operations on words
wrap modulo `2^w`; for words narrower than `int` the code computes in `int` and truncates on assignment, which gives the same words.
-/

namespace Verif
namespace BI
open CC

/-- l.243-259 `inplace_binop`: the words of `dst` are consumed from the left, with the early exit of l.256 -/
def binop (op : ℕ → ℕ → ℕ → ℕ × ℕ) : List ℕ → List ℕ → ℕ → List ℕ × ℕ
  | [], _, c => ([], c)
  | d :: ds, [], c =>
    let v := op d 0 c
    if v.2 = 0 then (v.1 :: ds, v.2)
    else
      let t := binop op ds [] v.2
      (v.1 :: t.1, t.2)
  | d :: ds, r :: rs, c =>
    let v := op d r c
    let t := binop op ds rs v.2
    (v.1 :: t.1, t.2)

/-- l.274-276 `add_with_carry` on arrays -/
def addC (w : ℕ) (dst rhs : List ℕ) : List ℕ × ℕ := binop (addWithCarry w) dst rhs 0

/-- l.291-293 `sub_with_borrow` on arrays -/
def subB (w : ℕ) (dst rhs : List ℕ) : List ℕ × ℕ := binop (subWithBorrow w) dst rhs 0

/-- l.171-226 `mul2`: low and high word of the product; `wide` says whether the compiler has an integer type of twice the width (l.174-190),
otherwise the long multiplication of l.203-224 on half words is used (`w` even) -/
def mul2 (wide : Bool) (w a b : ℕ) : ℕ × ℕ :=
  if wide then ((a * b) % 2 ^ w, (a * b) >>> w)
  else
    let h := w / 2
    let alo := a % 2 ^ h
    let blo := b % 2 ^ h
    let ahi := a >>> h
    let bhi := b >>> h
    let step1 := blo * alo
    let step2 := blo * ahi
    let step3 := bhi * alo
    let step4 := bhi * ahi
    let l1 := addWithCarry w step1 ((step2 <<< h) % 2 ^ w) 0
    let h1 := addWithCarry w step4 (step2 >>> h) l1.2
    let l2 := addWithCarry w l1.1 ((step3 <<< h) % 2 ^ w) 0
    let h2 := addWithCarry w h1.1 (step3 >>> h) l2.2
    (l2.1, h2.1)

/-- l.308-310 `mul_add_with_carry` on the two words of an `Accumulator` (l.319-357) -/
def mulAdd (wide : Bool) (w : ℕ) (acc : ℕ × ℕ) (b c : ℕ) : (ℕ × ℕ) × ℕ :=
  let p := mul2 wide w b c
  let r := addC w [acc.1, acc.2] [p.1, p.2]
  ((r.1.getD 0 0, r.1.getD 1 0), r.2)

/-- l.371-381 `scalar_multiply_with_carry`; `acc` is the accumulator on entry of the loop body -/
def scalarMulAux (wide : Bool) (w x : ℕ) : List ℕ → ℕ × ℕ → List ℕ × ℕ
  | [], acc => ([], acc.2)
  | d :: ds, acc =>
    let r := mulAdd wide w acc d x
    let t := scalarMulAux wide w x ds (r.1.2, r.2)
    (r.1.1 :: t.1, t.2)

/-- l.371-381. `acc.carry()` is the second word of the accumulator. -/
def scalarMul (wide : Bool) (w : ℕ) (dst : List ℕ) (x : ℕ) : List ℕ × ℕ := scalarMulAux wide w x dst (0, 0)

/-- l.410, 434, 441: accumulate `lhs[j] * rhs[i - j]`; the state is the accumulator and `carry` -/
def colStep (wide : Bool) (w : ℕ) (lhs rhs : List ℕ) (i : ℕ) (s : (ℕ × ℕ) × ℕ) (j : ℕ) : (ℕ × ℕ) × ℕ :=
  let r := mulAdd wide w s.1 (lhs.getD j 0) (rhs.getD (i - j) 0)
  (r.1, (s.2 + r.2) % 2 ^ w)

/-- l.409-410: one column, `carry` starts at zero -/
def mulCol (wide : Bool) (w : ℕ) (lhs rhs : List ℕ) (i : ℕ) (js : List ℕ) (acc : ℕ × ℕ) : (ℕ × ℕ) × ℕ :=
  js.foldl (colStep wide w lhs rhs i) (acc, 0)

/-- l.407-408: the indices `lower_idx .. upper_idx` -/
def colRange (M N i : ℕ) : List ℕ :=
  let lower := if i < N then 0 else i - N + 1
  let upper := if i < M then i else M - 1
  List.range' lower (upper + 1 - lower)

/-- l.400-414 `multiply_with_carry` -/
def mulWithCarry (wide : Bool) (w O : ℕ) (lhs rhs : List ℕ) : List ℕ × ℕ :=
  let s := (List.range O).foldl (fun (s : List ℕ × (ℕ × ℕ)) i =>
    let r := mulCol wide w lhs rhs i (colRange lhs.length rhs.length i) s.2
    (s.1 ++ [r.1.1], (r.1.2, r.2))) ([], (0, 0))
  (s.1, s.2.2)

/-- l.427-445 `quick_mul_hi`; the state is `dst` so far, the accumulator and `carry`.  The two operands have the same length `N ≥ 1`. -/
def quickMulHi (wide : Bool) (w : ℕ) (lhs rhs : List ℕ) : List ℕ :=
  let N := lhs.length
  let r0 := mulCol wide w lhs rhs (N - 1) (List.range N) (0, 0)
  let s := (List.range' N (N - 1)).foldl (fun (s : List ℕ × ((ℕ × ℕ) × ℕ)) i =>
    let r := mulCol wide w lhs rhs i (List.range' (i - N + 1) (N - (i - N + 1))) (s.2.1.2, s.2.2)
    (s.1 ++ [r.1.1], r)) ([], r0)
  s.1 ++ [s.2.1.2]

/-- l.455-460 `is_negative`, l.1353 `get_msb` -/
def msb (w : ℕ) (a : List ℕ) : Bool := decide (a.getLastD 0 >>> (w - 1) ≠ 0)

/-- l.502-536 `shift<eLEFT>` (the branch l.489-501 uses the built-in 128-bit shift instead and is not modelled): `index` runs over `0 .. N-1` and fills position `N - 1 - index`, hence the final `reverse` -/
def shl (w : ℕ) (a : List ℕ) (s : ℕ) : List ℕ :=
  if s = 0 then a
  else
    let N := a.length
    let io := s / w
    let bo := s % w
    let get (index : ℕ) : ℕ := if N < index + 1 then 0 else a.getD (N - index - 1) 0
    ((List.range N).map fun index =>
      let p1 := get (index + io)
      let p2 := get (index + io + 1)
      if bo = 0 then p1 else (p1 <<< bo) % 2 ^ w ||| p2 >>> (w - bo)).reverse

/-- l.502-536 `shift<eRIGHT, is_signed>` -/
def shr (signed : Bool) (w : ℕ) (a : List ℕ) (s : ℕ) : List ℕ :=
  if s = 0 then a
  else
    let N := a.length
    let neg := signed && msb w a
    let io := s / w
    let bo := s % w
    let get (index : ℕ) : ℕ := if N ≤ index then (if neg then 2 ^ w - 1 else 0) else a.getD index 0
    (List.range N).map fun index =>
      let p1 := get (index + io)
      let p2 := get (index + io + 1)
      if bo = 0 then p1 else p1 >>> bo ||| (p2 <<< (w - bo)) % 2 ^ w

/-- l.539-551 `DECLARE_COUNTBIT`: `f` counts within a word; stop at the first word that is not entirely counted -/
def countBits (f : ℕ → ℕ) (w : ℕ) : List ℕ → ℕ
  | [] => 0
  | d :: ds => if f d ≠ w then f d else f d + countBits f w ds

/-- l.554 -/
def ctz (w : ℕ) (a : List ℕ) : ℕ := countBits (countrZero w) w a
/-- l.555 -/
def cto (w : ℕ) (a : List ℕ) : ℕ := countBits (countrOne w) w a
/-- l.556 -/
def clz (w : ℕ) (a : List ℕ) : ℕ := countBits (countlZero w) w a.reverse
/-- l.557 -/
def clo (w : ℕ) (a : List ℕ) : ℕ := countBits (countlOne w) w a.reverse

/-- l.789 `is_neg` -/
def isNeg (signed : Bool) (w : ℕ) (a : List ℕ) : Bool := signed && msb w a

/-- l.855-862 -/
def isZero : List ℕ → Bool
  | [] => true
  | d :: ds => if d ≠ 0 then false else isZero ds

/-- l.653-665, 1347-1351: conversion to `M` words of the same size -/
def resize (signed otherSigned : Bool) (w M : ℕ) (a : List ℕ) : List ℕ :=
  if M ≤ a.length then a.take M
  else a ++ List.replicate (M - a.length) (if signed && isNeg otherSigned w a then 2 ^ w - 1 else 0)

/-- l.722-740: conversion from a built-in integer; `tbits` is the width of its type.  The shift of l.734 is arithmetic for negative values. -/
def ofIntAux (w tbits : ℕ) (neg : Bool) : ℕ → ℤ → List ℕ
  | 0, _ => []
  | n + 1, v =>
    if v = 0 then List.replicate (n + 1) (if neg then 2 ^ w - 1 else 0)
    else (v % 2 ^ w).toNat :: ofIntAux w tbits neg n (if tbits > w then v / 2 ^ w else 0)

/-- l.722-740 -/
def ofInt (w tbits N : ℕ) (v : ℤ) : List ℕ := ofIntAux w tbits (decide (v < 0)) N v

/-- l.871-876 -/
def add (w : ℕ) (a b : List ℕ) : List ℕ := (addC w a b).1
/-- l.907-912 -/
def sub (w : ℕ) (a b : List ℕ) : List ℕ := (subB w a b).1
/-- l.945-951 `ful_mul` -/
def fulMul (wide : Bool) (w : ℕ) (a b : List ℕ) : List ℕ := (mulWithCarry wide w (a.length + b.length) a b).1
/-- l.956 `operator*`: the full product converted back to the operand type -/
def mul (wide signed : Bool) (w : ℕ) (a b : List ℕ) : List ℕ := resize signed signed w a.length (fulMul wide w a b)

/-- l.994-1006 `pow_n` (unsigned); the first argument bounds the iterations (`expo` has 64 bits) -/
def powLoop (wide : Bool) (w : ℕ) : ℕ → List ℕ → List ℕ → ℕ → List ℕ
  | 0, r, _, _ => r
  | n + 1, r, c, e =>
    if e > 0 then powLoop wide w n (if e % 2 > 0 then mul wide false w r c else r) (mul wide false w c c) (e >>> 1) else r

/-- l.994-1006; `one()` (l.759) is the conversion of the `int` 1 -/
def powN (wide : Bool) (w : ℕ) (a : List ℕ) (e : ℕ) : List ℕ := powLoop wide w 64 (ofInt w 32 a.length 1) a e

/-- l.1219-1221 -/
def band (a b : List ℕ) : List ℕ := List.zipWith (· &&& ·) a b
/-- l.1219-1221 -/
def bor (a b : List ℕ) : List ℕ := List.zipWith (· ||| ·) a b
/-- l.1219-1221 -/
def bxor (a b : List ℕ) : List ℕ := List.zipWith (· ^^^ ·) a b
/-- l.1224-1229, 1330-1333 -/
def bnot (w : ℕ) (a : List ℕ) : List ℕ := a.map fun d => 2 ^ w - 1 - d
/-- l.1341-1342 -/
def increment (w : ℕ) (a : List ℕ) : List ℕ := (addC w a [1]).1
/-- l.1344-1345 -/
def decrement (w : ℕ) (a : List ℕ) : List ℕ := (subB w a [1]).1
/-- l.1335-1339 -/
def negate (w : ℕ) (a : List ℕ) : List ℕ := increment w (bnot w a)

/-- l.1238-1245 -/
def eqB : List ℕ → List ℕ → Bool
  | d :: ds, e :: es => if d ≠ e then false else eqB ds es
  | _, _ => true

/-- l.1323-1327: from the most significant word down -/
def cmpAux : List ℕ → List ℕ → ℤ
  | d :: ds, e :: es => if d > e then 1 else if d = e then cmpAux ds es else -1
  | _, _ => 0

/-- l.1311-1328 `cmp` -/
def cmp (signed : Bool) (w : ℕ) (a b : List ℕ) : ℤ :=
  let na := isNeg signed w a
  let nb := isNeg signed w b
  if signed && na != nb then (if nb then 1 else -1) else cmpAux a.reverse b.reverse

/-- l.1298-1302 -/
def getBit (w : ℕ) (a : List ℕ) (i : ℕ) : Bool := decide (1 &&& (a.getD (i / w) 0 >>> (i % w)) ≠ 0)

/-- l.1304-1308 -/
def setBit (w : ℕ) (a : List ℕ) (i : ℕ) : List ℕ := a.set (i / w) (a.getD (i / w) 0 ||| (1 <<< (i % w)) % 2 ^ w)

/-- l.1372-1381: the loop of `divide_unsigned`; state `quotient`, `remainder`, `subtractor`, `cur_bit`; the first argument bounds the iterations -/
def divLoop (w : ℕ) : ℕ → List ℕ → List ℕ → List ℕ → ℤ → List ℕ × List ℕ
  | 0, q, r, _, _ => (q, r)
  | n + 1, q, r, s, bit =>
    if bit ≥ 0 ∧ cmp false w r (ofInt w 32 r.length 0) > 0 then
      let ge := cmp false w r s ≥ 0
      let r' := if ge then sub w r s else r
      let q' := if ge then setBit w q bit.toNat else q
      divLoop w n q' r' (shr false w s 1) (bit - 1)
    else (q, r)

/-- l.1362-1384 `divide_unsigned`; the fuel exceeds the number of bits -/
def divideUnsigned (w : ℕ) (a d : List ℕ) : List ℕ × List ℕ :=
  let q := List.replicate a.length 0
  if cmp false w a d ≥ 0 then
    let bit : ℤ := (clz w d : ℤ) - clz w a
    divLoop w (w * a.length + 1) q a (shl w d bit.toNat) bit
  else (q, a)

/-- l.769-774 `min()` -/
def minVal (signed : Bool) (w N : ℕ) : List ℕ :=
  if signed then List.replicate (N - 1) 0 ++ [2 ^ (w - 1)] else List.replicate N 0

/-- l.1386-1415 `divide_signed` -/
def divideSigned (w : ℕ) (a d : List ℕ) : List ℕ × List ℕ :=
  let N := a.length
  if eqB a (minVal true w N) && eqB d (minVal true w N) then (ofInt w 32 N 1, List.replicate N 0)
  else
    let na := isNeg true w a
    let nd := isNeg true w d
    let ua := if na then negate w a else a
    let ud := if nd then negate w d else d
    let r := divideUnsigned w ua ud
    (if na != nd then negate w r.1 else r.1, if na then negate w r.2 else r.2)

/-- l.1020-1034 `div`: new value of `*this` and the returned remainder; `none` is `std::nullopt` -/
def div (signed : Bool) (w : ℕ) (a d : List ℕ) : Option (List ℕ × List ℕ) :=
  if isZero d then none
  else if eqB d (ofInt w 32 a.length 1) then some (a, List.replicate a.length 0)
  else some (if signed then divideSigned w a d else divideUnsigned w a d)

/-- l.1478 `digits` and l.1631-1638 `rotl`; `rotate % N` is evaluated in `unsigned` (`N` is `unsigned`), so the result is never negative and the
branch of l.1636 is dead.  Unsigned types. -/
def rotl (w : ℕ) (a : List ℕ) (rotate : ℤ) : List ℕ :=
  let N := w * a.length
  let r := (rotate % 2 ^ 32).toNat % N
  if r = 0 then a else bor (shl w a r) (shr false w a (N - r))

/-- l.1641-1648 `rotr`, as above -/
def rotr (w : ℕ) (a : List ℕ) (rotate : ℤ) : List ℕ :=
  let N := w * a.length
  let r := (rotate % 2 ^ 32).toNat % N
  if r = 0 then a else bor (shr false w a r) (shl w a (N - r))

/-- l.1583-1592 -/
def popcountB (w : ℕ) (a : List ℕ) : ℕ := a.foldl (fun n d => if d ≠ 0 then n + popcount w d else n) 0

/-- l.1623-1625 `bit_width` (unsigned) -/
def bitWidth (w : ℕ) (a : List ℕ) : ℕ := w * a.length - clz w a

/-- l.1703-1705 `first_trailing_one` (unsigned): compares with `max()` where zero is meant -/
def firstTrailingOne (w : ℕ) (a : List ℕ) : ℕ := if eqB a (List.replicate a.length (2 ^ w - 1)) then 0 else ctz w a + 1

/-- l.1699-1701 `first_trailing_zero` (unsigned) -/
def firstTrailingZero (w : ℕ) (a : List ℕ) : ℕ :=
  if eqB a (List.replicate a.length (2 ^ w - 1)) then 0 else ctz w (bnot w a) + 1

/-- l.1691-1693 `first_leading_zero` (unsigned) -/
def firstLeadingZero (w : ℕ) (a : List ℕ) : ℕ := if eqB a (List.replicate a.length (2 ^ w - 1)) then 0 else clo w a + 1

/-- l.1695-1697 `first_leading_one` (unsigned) -/
def firstLeadingOne (w : ℕ) (a : List ℕ) : ℕ := firstLeadingZero w (bnot w a)

/-- support/math_support.hpp l.158-168 `mask_trailing_ones` on a word -/
def maskTrailingOnesW (w count : ℕ) : ℕ := if count = 0 then 0 else (2 ^ w - 1) >>> (w - count)
/-- support/math_support.hpp l.174-176 `mask_leading_ones` on a word -/
def maskLeadingOnesW (w count : ℕ) : ℕ := 2 ^ w - 1 - maskTrailingOnesW w (w - count)

/-- l.1650-1661 `mask_trailing_ones` -/
def maskTrailingOnes (w N count : ℕ) : List ℕ :=
  if count = w * N then List.replicate N (2 ^ w - 1)
  else (List.range N).map fun i => if i ≤ count / w then (if i < count / w then 2 ^ w - 1 else maskTrailingOnesW w (count % w)) else 0

/-- l.1663-1677 `mask_leading_ones` -/
def maskLeadingOnes (w N count : ℕ) : List ℕ :=
  if count = w * N then List.replicate N (2 ^ w - 1)
  else (List.range N).map fun i =>
    if (w * N - count - 1) / w ≤ i then (if i > (w * N - count - 1) / w then 2 ^ w - 1 else maskLeadingOnesW w (count % w)) else 0

/-- l.817-841 `to<T>()` with a target of `tbits` bits; the result is the unsigned reading of the target object -/
def toT (signed : Bool) (w tbits : ℕ) (a : List ℕ) : ℕ :=
  let lo := a.getD 0 0 % 2 ^ tbits
  if tbits ≤ w then lo
  else
    let cnt := if tbits > w * a.length then a.length else tbits / w
    let lo := (List.range' 1 (cnt - 1)).foldl (fun lo i => (lo + ((a.getD i 0) <<< (w * i)) % 2 ^ tbits) % 2 ^ tbits) lo
    if signed && decide (tbits > w * a.length) && isNeg signed w a then lo ||| (((2 ^ tbits - 1) <<< (w * a.length)) % 2 ^ tbits) else lo

end BI
end Verif
