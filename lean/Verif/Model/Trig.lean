import Verif.Model.Dyadic
import Verif.Model.FpSupport

/-!
# Large-argument reduction of sin, cos and tan: `math/trig/impl/sincos_payne_hanek.hpp`

`std::uint64_t` values are natural numbers below `2^64`, with the wrap-around written out; `long` is 64 bits (it holds at most `2^11` here).
The 256-bit accumulator `acc[4]` is the list of its words, least significant first.  `fused` says whether `support::multiply_add` is a fused
operation on the target (`internal/support/multiply_add.hpp` l.45-60); `md` is the rounding mode of the arithmetic.
-/

namespace Verif.CC
open Fmt

/-- l.31-38 `FRAC_8_OVER_PI` -/
def frac8OverPi : List ℕ := [
  0x8be60db9391054a7, 0xf09d5f47d4d37703, 0x6d8a5664f10e4107, 0xf9458eaf7aef1586, 0xdc91b8e909374b80, 0x1924bba827464873,
  0xf877ac72c4a69cfb, 0xa208d7d4baed1213, 0xa671c09ad17df904, 0xe64758e60d4ce7d2, 0x72117e2ef7e4a0ec, 0x7fe25fff7816603f,
  0xbcbc462d6829b47d, 0xb4d9fb3c9f2c26dd, 0x3d18fd9a797fa8b5, 0xd49eeb1faf97c5ec, 0xf41ce7de294a4ba9, 0xafed7ec47e357421,
  0x580cc11bf1edaeaf, 0xc33ef0826bd0d876, 0xa78e45857b986c21, 0x9666157c5281a102, 0x37ff620135cc9cc4, 0x1818555b29cea325,
  0x8389ef0231ad1f10, 0x670d9f3773a024aa, 0x0d6711da2e58729b, 0x76bd13455c6414fa, 0x97fc1c14fdf8cfa0, 0xcb0b793e60c9f6ef,
  0x0cf49bbdac797be2, 0x7ce87cd72bc9fc76]

/-- l.40 `PI_OVER_8_HI` = `0x1.921fb54442d18p-2` -/
def piOver8Hi : ℕ := 0x3FD921FB54442D18
/-- l.41 `PI_OVER_8_LO` = `0x1.1a62633145c07p-56` -/
def piOver8Lo : ℕ := 0x3C71A62633145C07

/-- l.50-64 `mul64`: (hi, lo) -/
def mul64 (a b : ℕ) : ℕ × ℕ :=
  let alo := a &&& 0xffffffff
  let ahi := a >>> 32
  let blo := b &&& 0xffffffff
  let bhi := b >>> 32
  let ll := (alo * blo) % 2 ^ 64
  let lh := (alo * bhi) % 2 ^ 64
  let hl := (ahi * blo) % 2 ^ 64
  let hh := (ahi * bhi) % 2 ^ 64
  let mid := ((ll >>> 32) + (lh &&& 0xffffffff) + (hl &&& 0xffffffff)) % 2 ^ 64
  let lo := (ll &&& 0xffffffff) ||| ((mid <<< 32) % 2 ^ 64)
  let hi := (hh + (lh >>> 32) + (hl >>> 32) + (mid >>> 32)) % 2 ^ 64
  (hi, lo)

/-- l.68-77 `add_at_word`: the loop `while (val != 0 && word < 4)`, which ends at the end of the array -/
def addAtWord : List ℕ → ℕ → ℕ → List ℕ
  | [], _, _ => []
  | a :: as, v, 0 =>
    if v = 0 then a :: as
    else
      let n := (a + v) % 2 ^ 64
      n :: addAtWord as (if n < a then 1 else 0) 0
  | a :: as, v, w + 1 => a :: addAtWord as v w

/-- l.81-99 `add_word_at` -/
def addWordAt (acc : List ℕ) (w : ℕ) (bitpos : ℤ) : List ℕ :=
  if w = 0 then acc
  else if bitpos < 0 ∧ -bitpos ≥ 64 then acc
  else
    let w := if bitpos < 0 then w >>> (-bitpos).toNat else w
    let bitpos := if bitpos < 0 then 0 else bitpos
    if w = 0 then acc
    else if bitpos ≥ 256 then acc
    else
      let word := bitpos.toNat >>> 6
      let off := bitpos.toNat &&& 63
      let low := (w <<< off) % 2 ^ 64
      let high := if off ≠ 0 then w >>> (64 - off) else 0
      let acc := addAtWord acc low word
      if high ≠ 0 ∧ word + 1 < 4 then addAtWord acc high (word + 1) else acc

/-- l.115-123: the loop over the table; `i` is the index of the next entry -/
def phLoop (mantissa : ℕ) (binaryExp : ℤ) : List ℕ → ℕ → List ℕ → List ℕ
  | [], _, acc => acc
  | t :: ts, i, acc =>
    let shift : ℤ := binaryExp - 64 * (i + 1) + 252
    let acc :=
      if shift ≤ -128 ∨ shift ≥ 256 then acc
      else
        let p := mul64 mantissa t
        addWordAt (addWordAt acc p.2 shift) p.1 (shift + 64)
    phLoop mantissa binaryExp ts (i + 1) acc

/-- l.106-123: the accumulator -/
def phAcc (x : ℕ) : List ℕ :=
  let abs := FPBits.abs binary64 x
  let e : ℤ := (((abs >>> 52) &&& 0x7ff : ℕ) : ℤ) - 1023
  let mantissa := (abs &&& 0xfffffffffffff) ||| 0x10000000000000
  let binaryExp := e - 52
  phLoop mantissa binaryExp frac8OverPi 0 (addWordAt [0, 0, 0, 0] mantissa (binaryExp + 1 + 252))

/-- l.102-148 `payne_hanek_reduce`: the returned multiple of pi/8 modulo 16 and `y` -/
def payneHanek (fused : Bool) (md : Mode) (x : ℕ) : ℕ × ℕ :=
  let neg := FPBits.isNeg binary64 x
  let acc := phAcc x
  let k := (acc.getD 3 0 >>> 60) &&& 15
  let a3 := acc.getD 3 0 &&& 0x0fffffffffffffff
  let roundUp := ((a3 >>> 59) &&& 1) != 0
  let w0 := ((a3 <<< 4) % 2 ^ 64) ||| (acc.getD 2 0 >>> 60)
  let w1 := ((acc.getD 2 0 <<< 4) % 2 ^ 64) ||| (acc.getD 1 0 >>> 60)
  let rHi := binary64.hmul md (binary64.ofInt md ((w0 >>> 11 : ℕ) : ℤ)) (pow2 binary64 false (-53))
  let rLo := binary64.hadd md (binary64.hmul md (binary64.ofInt md ((w0 &&& 0x7ff : ℕ) : ℤ)) (pow2 binary64 false (-64)))
    (binary64.hmul md (binary64.ofInt md (w1 : ℤ)) (pow2 binary64 false (-128)))
  let rHi := if roundUp then binary64.hsub md rHi (pow2 binary64 false 0) else rHi
  let k := if roundUp then (k + 1) &&& 15 else k
  let y := multiplyAdd binary64 fused md rHi piOver8Hi (multiplyAdd binary64 fused md rHi piOver8Lo (binary64.hmul md rLo piOver8Hi))
  let y := if neg then binary64.hneg y else y
  let k := if neg then (2 ^ 32 - k) % 2 ^ 32 else k
  (k &&& 15, y)

/-! ## Double sine and cosine: `sincos_double_impl.hpp`, `sincos_double_data.hpp` -/

/-- sincos_double_data.hpp l.23-26 `SIN_K_PI_OVER_8` -/
def sinKPi8 : List ℕ := [
  0x0000000000000000, 0x3FD87DE2A6AEA963, 0x3FE6A09E667F3BCD, 0x3FED906BCF328D46,
  0x3FF0000000000000, 0x3FED906BCF328D46, 0x3FE6A09E667F3BCD, 0x3FD87DE2A6AEA963,
  0x0000000000000000, 0xBFD87DE2A6AEA963, 0xBFE6A09E667F3BCD, 0xBFED906BCF328D46,
  0xBFF0000000000000, 0xBFED906BCF328D46, 0xBFE6A09E667F3BCD, 0xBFD87DE2A6AEA963]

/-- sincos_double_data.hpp l.31 `MPI[0]` = `-0x1.921fb544p-2` -/
def mpi0 : ℕ := 0xBFD921FB54400000
/-- sincos_double_data.hpp l.31 `MPI[1]` = `-0x1.0b4611a8p-36` -/
def mpi1 : ℕ := 0xBDB0B4611A800000
/-- sincos_double_data.hpp l.31 `MPI[2]` = `0x1.d9cceba3f91f2p-68` -/
def mpi2 : ℕ := 0x3BBD9CCEBA3F91F2
/-- sincos_double_data.hpp l.34 `ONE_OVER_PI` = `0x1.45f306dc9c883p+1` -/
def oneOverPi : ℕ := 0x40045F306DC9C883
/-- sincos_double_data.hpp l.38-45 `SIN_POLY` -/
def sinPoly : List ℕ := [0x3FF0000000000000, 0xBFC5555555555555, 0x3F81111111111111, 0xBF2A01A01A01A01A, 0x3EC71DE3A556C734, 0xBE5AE64567F544E4]
/-- sincos_double_data.hpp l.48-50 `COS_POLY` -/
def cosPoly : List ℕ := [0x3FF0000000000000, 0xBFE0000000000000, 0x3FA55555555554F0, 0xBF56C16C16B84C68, 0x3EFA019F88D4441E, 0xBE927A8A5F9090D7]

/-- `static_cast<int>` of a floating-point value: truncation, undefined (`none`) for non-finite values and values outside `int` -/
def toInt32 (f : Fmt) (x : ℕ) : Option ℤ :=
  if f.nanB x || f.infB x then none
  else
    let t := (f.ival x).tdiv f.uscale
    if -2 ^ 31 ≤ t ∧ t < 2 ^ 31 then some t else none

/-- sincos_double_impl.hpp l.35-44 `sincos_range_reduction_small`: the returned `unsigned` and `u`; `ce` is constant evaluation -/
def sincosSmall (ce fused : Bool) (md : Mode) (x : ℕ) : Option (ℕ × ℕ) :=
  let prodHi := binary64.hmul md x oneOverPi
  let k := nearestInteger binary64 ce md prodHi
  let yHi := multiplyAdd binary64 fused md k mpi0 x
  let u := multiplyAdd binary64 fused md k mpi1 yHi
  let u := multiplyAdd binary64 fused md k mpi2 u
  (toInt32 binary64 k).map fun n => ((n % 2 ^ 32).toNat, u)

/-- sincos_double_impl.hpp l.81-109: the polynomials and the recombination; `k` and `y` are the reduced argument -/
def sincosPoly (isSin fused : Bool) (md : Mode) (k y : ℕ) : ℕ :=
  let ma := multiplyAdd binary64 fused md
  let sinK := sinKPi8.getD (k &&& 15) 0
  let cosK := sinKPi8.getD (((k + 4) % 2 ^ 32) &&& 15) 0
  let ySq := binary64.hmul md y y
  let sp := ma ySq (sinPoly.getD 5 0) (sinPoly.getD 4 0)
  let sp := ma ySq sp (sinPoly.getD 3 0)
  let sp := ma ySq sp (sinPoly.getD 2 0)
  let sp := ma ySq sp (sinPoly.getD 1 0)
  let cp := ma ySq (cosPoly.getD 5 0) (cosPoly.getD 4 0)
  let cp := ma ySq cp (cosPoly.getD 3 0)
  let cp := ma ySq cp (cosPoly.getD 2 0)
  let cp := ma ySq cp (cosPoly.getD 1 0)
  let y3 := binary64.hmul md ySq y
  let c1 := ma ySq cp (pow2 binary64 false 0)
  let s1 := ma y3 sp y
  if isSin then ma cosK s1 (binary64.hmul md sinK c1)
  else ma cosK c1 (binary64.hmul md (binary64.hneg sinK) s1)

/-- sincos_double_impl.hpp l.46-110 `sincos_eval` (errno and exception flags left out; `none` is undefined behaviour) -/
def sincosEval (isSin ce fused : Bool) (md : Mode) (x : ℕ) : Option ℕ :=
  let xAbs := x &&& 0x7fffffffffffffff
  if xAbs = 0 then some (if isSin then x else pow2 binary64 false 0)
  else if xAbs < 0x4130000000000000 then
    (sincosSmall ce fused md x).map fun r => sincosPoly isSin fused md r.1 r.2
  else if xAbs ≥ 0x7ff0000000000000 then
    if FPBits.isSignalingNan binary64 x then some (FPBits.quietNaN binary64 false 0)
    else some (binary64.hadd md x (FPBits.quietNaN binary64 false 0))
  else
    let r := payneHanek fused md x
    some (sincosPoly isSin fused md r.1 r.2)

/-- tan_gen.hpp l.21-31 `tan_gen<double>` -/
def tanGen (ce fused : Bool) (md : Mode) (x : ℕ) : Option ℕ := do
  let s ← sincosEval true ce fused md x
  let c ← sincosEval false ce fused md x
  if binary64.heq c (binary64.zero false) then some binary64.qnan else some (binary64.hdiv md s c)

end Verif.CC
