import Verif.Model.BigInt

/-!
# Integer literals, conversions between wide integers, division by `x * 2^e`

`internal/support/integer_literals.hpp` (the digit parser behind `_u96`, `_u128`, `_u256`) and the converting constructor of
`internal/types/big_int.hpp` for operands whose words have different sizes, and its `div_uint_half_times_pow_2`.  Line numbers refer to the file named in each section.
`none` is a call of `ccm::support::unreachable()`: a compilation error during constant evaluation and undefined behaviour otherwise.
-/

namespace Verif
namespace BI

/-! ## integer_literals.hpp -/

/-- l.63-69 `calculate_bits_per_digit` -/
def bitsPerDigit (base : ℕ) : ℕ := if base = 2 then 1 else if base = 10 then 3 else if base = 16 then 4 else 0

/-- l.85-94 `get_digit_value`; 255 is `INVALID_DIGIT` (l.73).  Characters are those of a `const char *`; codes above 127, which are negative
when `char` is signed, are neither digits nor letters here and in the code. -/
def digitValue (base : ℕ) (c : Char) : ℕ :=
  if '0' ≤ c ∧ c ≤ '9' then c.toNat - 48
  else if base > 10 ∧ (('a' ≤ c ∧ c ≤ 'z') ∨ ('A' ≤ c ∧ c ≤ 'Z')) then (c.toNat ||| 32) - 97 + 10
  else 255

/-- l.98-115 `push`; `cap` is `MAX_DIGITS` -/
def pushDigit (base cap : ℕ) (ds : List ℕ) (c : Char) : Option (List ℕ) :=
  if c = '\'' then some ds
  else if digitValue base c = 255 ∨ ds.length ≥ cap then none
  else some (ds ++ [digitValue base c])

/-- l.78-81 the constructor of `DigitBuffer`, `bits` is `sizeof(T) * CHAR_BIT` (l.72) -/
def digitBuffer (base bits : ℕ) (str : List Char) : Option (List ℕ) := str.foldlM (pushDigit base (bits / bitsPerDigit base)) []

/-- l.44-53 `accumulate` for a built-in unsigned type of `bits` bits -/
def accumulate (bits base : ℕ) (ds : List ℕ) : ℕ :=
  ds.foldl (fun v d => ((v * (base % 2 ^ bits)) % 2 ^ bits + d) % 2 ^ bits) 0

/-- l.44-53 `accumulate` for `UInt`, with `N` words of `w` bits; the base is an `int`, the digits are `uint8_t` -/
def accumulateBig (wide : Bool) (w N base : ℕ) (ds : List ℕ) : List ℕ :=
  ds.foldl (fun v (d : ℕ) => add w (mul wide false w v (ofInt w 32 N base)) (ofInt w 8 N d)) (List.replicate N 0)

/-- l.120-129 `Parser<T>::parse` for a built-in type -/
def parseNative (base bits : ℕ) (str : List Char) : Option ℕ := (digitBuffer base bits str).map (accumulate bits base)

/-- l.157-167: the loop over the words; the digits still to be read are the first `size` ones -/
def chunkWords (w base : ℕ) : ℕ → List ℕ → List ℕ
  | 0, _ => []
  | n + 1, ds =>
    let digits := w / bitsPerDigit base
    let chunk := if ds.length > digits then digits else ds.length
    let start := ds.length - chunk
    accumulate w base (ds.drop start) :: chunkWords w base n (ds.take start)

/-- l.136-171 `Parser<UInt<N>>::parse` -/
def parseBig (wide : Bool) (w N base : ℕ) (str : List Char) : Option (List ℕ) :=
  (digitBuffer base (w * N) str).map fun ds => if base = 10 then accumulateBig wide w N base ds else chunkWords w base N ds

/-- l.174-184 `parse_with_prefix_internal`: the base and the characters handed to the parser -/
def splitPrefix (str : List Char) : ℕ × List Char :=
  match str with
  | '0' :: 'b' :: rest => (2, rest)
  | '0' :: 'x' :: rest => (16, rest)
  | s => (10, s)

/-- l.187-192 `parse_with_prefix` for a built-in type, the operator `_u128` (l.198-199) where `__uint128_t` exists; the argument is not null -/
def parsePrefixNative (bits : ℕ) (str : List Char) : Option ℕ := parseNative (splitPrefix str).1 bits (splitPrefix str).2

/-- l.187-192 `parse_with_prefix` for `UInt`: `_u96` is `w = 32, N = 3` (l.195-196), `_u256` is `w = 64, N = 4` (l.201-202) -/
def parsePrefixBig (wide : Bool) (w N : ℕ) (str : List Char) : Option (List ℕ) := parseBig wide w N (splitPrefix str).1 (splitPrefix str).2

/-! ## big_int.hpp: conversions between word sizes -/

/-- l.1347-1351 `extend` from index `a.length` on, `N` words in all -/
def extendTo (w N : ℕ) (neg : Bool) (a : List ℕ) : List ℕ := a ++ List.replicate (N - a.length) (if neg then 2 ^ w - 1 else 0)

/-- l.627-631: one word from the `r` small words from index `i * r` on -/
def packWord (w ow r : ℕ) (a : List ℕ) (i : ℕ) : ℕ :=
  (List.range r).foldl (fun cur j => cur ||| (a.getD (i * r + j) 0 <<< (ow * j)) % 2 ^ w) 0

/-- l.638-646: the words written so far and `cur_word`, before step `i` -/
def packStep (w ow r : ℕ) (a : List ℕ) (s : List ℕ × ℕ) (i : ℕ) : List ℕ × ℕ :=
  let cur := s.2 ||| (a.getD i 0 <<< (ow * (i % r))) % 2 ^ w
  if i % r = r - 1 then (s.1 ++ [cur], 0) else (s.1, cur)

/-- l.618-652: the words of the source are smaller, `ow < w` and `ow ∣ w` -/
def convUp (signed otherSigned : Bool) (w N ow : ℕ) (a : List ℕ) : List ℕ :=
  let r := w / ow
  let neg := signed && isNeg otherSigned ow a
  if w * N ≤ ow * a.length then (List.range N).map (packWord w ow r a)
  else
    let p := (List.range a.length).foldl (packStep w ow r a) ([], 0)
    let ext := if neg then 2 ^ w - 1 else 0
    let cur := if a.length % r ≠ 0 then p.2 ||| (ext <<< (ow * (a.length % r))) % 2 ^ w else p.2
    extendTo w N neg (p.1 ++ [cur])

/-- l.666-689: the words of the source are larger, `w < ow` and `w ∣ ow` -/
def convDown (signed otherSigned : Bool) (w N ow : ℕ) (a : List ℕ) : List ℕ :=
  let r := ow / w
  let neg := signed && isNeg otherSigned ow a
  if w * N ≤ ow * a.length then (List.range N).map fun i => (a.getD (i / r) 0 >>> (i % r * w)) % 2 ^ w
  else extendTo w N neg (a.flatMap fun d => (List.range r).map fun j => (d >>> (j * w)) % 2 ^ w)

/-! ## big_int.hpp: division by `x * 2^e` with `x` of half a word -/

/-- l.1082-1101: the words of the dividend from the most significant one down; the words of the quotient in the same order, and `rem` -/
def halfDivLoop (w x : ℕ) : List ℕ → ℕ → List ℕ × ℕ
  | [], rem => ([], rem)
  | v :: vs, rem =>
    let h := w >>> 1
    let rem := ((rem <<< h) % 2 ^ w + (v >>> h)) % 2 ^ w
    let q := rem / x
    let rem := rem % x
    let rem := ((rem <<< h) % 2 ^ w + (v &&& (2 ^ h - 1))) % 2 ^ w
    let qw := ((q <<< h) % 2 ^ w + rem / x) % 2 ^ w
    let t := halfDivLoop w x vs (rem % x)
    (qw :: t.1, t.2)

/-- l.1112-1141: `q_tmp` and `rem` after the step for the last, partial word `d`; `s` is `last_shift` -/
def halfDivLast (w x s rem d : ℕ) : ℕ × ℕ :=
  let h := w >>> 1
  let st : ℕ × ℕ × ℕ × ℕ :=
    if s ≥ h then
      let rem := ((rem <<< h) % 2 ^ w + (d >>> h)) % 2 ^ w
      (rem / x, rem % x, d &&& (2 ^ h - 1), s - h)
    else (0, rem, d >>> h, s)
  if st.2.2.2 > 0 then
    let rem := ((st.2.1 <<< h) % 2 ^ w + st.2.2.1) % 2 ^ w
    let xw := (x <<< (h - st.2.2.2)) % 2 ^ w
    (((st.1 <<< st.2.2.2) % 2 ^ w + rem / xw) % 2 ^ w, rem % xw)
  else (st.1, st.2.1)

/-- l.1050-1159 `div_uint_half_times_pow_2`: the new value of `*this` (the quotient) and the returned remainder; `none` is `std::nullopt`.
`LOG2_WORD_SIZE` (l.1062) is `bit_width(WORD_SIZE) - 1`.  Unsigned type. -/
def divHalfPow2 (w : ℕ) (a : List ℕ) (x e : ℕ) : Option (List ℕ × List ℕ) :=
  let N := a.length
  if x = 0 then none
  else if e ≥ w * N then some (List.replicate N 0, a)
  else
    let h := w >>> 1
    let lower := ((e >>> Nat.log2 w) + (if e &&& (w - 1) ≠ 0 then 1 else 0)) <<< Nat.log2 w
    let lowerPos := lower / w
    let t := halfDivLoop w x (a.reverse.take (N - lowerPos)) 0
    let quotient := t.1.reverse ++ List.replicate lowerPos 0
    let s := lower - e
    if s > 0 then
      let quotient := shl w quotient s
      let pos := lowerPos - 1
      let last := halfDivLast w x s t.2 (a.getD pos 0)
      let quotient := quotient.set 0 ((quotient.getD 0 0 + last.1) % 2 ^ w)
      let high :=
        if s ≤ h then
          let lo := ((last.2 <<< h) % 2 ^ w + (a.getD pos 0 &&& (2 ^ h - 1))) % 2 ^ w
          if pos < N - 1 then lo :: (last.2 >>> h) :: List.replicate (N - pos - 2) 0 else [lo]
        else last.2 :: List.replicate (N - pos - 1) 0
      some (quotient, a.take pos ++ high)
    else some (quotient, a.take lowerPos ++ t.2 :: List.replicate (N - lowerPos - 1) 0)

end BI
end Verif
