import Verif.Model.Log

/-!
# log1p: `math/expo/log1p.hpp` and `math/expo/impl/log1p_impl.hpp`

`md` is the rounding mode of the arithmetic. `ccm::double_t` is `double` (`FLT_EVAL_METHOD` 0) and no product and sum are contracted. `std::uint64_t` and
`std::uint32_t` values are natural numbers with the wrap-around written out; nothing in these functions is undefined. `errno` and exception flags are not modelled.
-/

namespace Verif.CC
open Fmt

/-- log1p_impl.hpp l.35-41 `log1p_lg1_d` … `log1p_lg7_d` -/
def l1pD1 : ℕ := 0x3FE5555555555555
/-- log1p_impl.hpp l.36 -/
def l1pD2 : ℕ := 0x3FD9999999999999
/-- log1p_impl.hpp l.37 -/
def l1pD3 : ℕ := 0x3FD2492492492492
/-- log1p_impl.hpp l.38 -/
def l1pD4 : ℕ := 0x3FCC71C71C71C6D6
/-- log1p_impl.hpp l.39 -/
def l1pD5 : ℕ := 0x3FC745D1745D0A63
/-- log1p_impl.hpp l.40 -/
def l1pD6 : ℕ := 0x3FC3B13B13B0FF6E
/-- log1p_impl.hpp l.41 -/
def l1pD7 : ℕ := 0x3FC111111111126E

/-- log1p_impl.hpp l.28-33: the float constants, converted to double where they are used (the conversion is exact) -/
def l1pFhi : ℕ := 0x3FE62E4300000000
/-- log1p_impl.hpp l.29 `log1p_ln2_lo_f` -/
def l1pFlo : ℕ := 0x3E205C6100000000
/-- log1p_impl.hpp l.30 -/
def l1pF1 : ℕ := 0x3FE5555560000000
/-- log1p_impl.hpp l.31 -/
def l1pF2 : ℕ := 0x3FD99999A0000000
/-- log1p_impl.hpp l.32 -/
def l1pF3 : ℕ := 0x3FD24924A0000000
/-- log1p_impl.hpp l.33 -/
def l1pF4 : ℕ := 0x3FCF0A3D80000000

/-- log1p_impl.hpp l.170-188: reduction `1 + x = 2^k (1 + f)` with the correction `c`; the result is `(k, f, c)` -/
def log1pRed (md : Mode) (x : ℕ) : ℤ × ℕ × ℕ :=
  let u := binary64.hadd md 0x3FF0000000000000 x
  let hu := (u >>> 32 + (0x3ff00000 - 0x3fe6a09e)) % 2 ^ 32
  let k : ℤ := (hu >>> 20 : ℕ) - 0x3ff
  let c := if k < 54 then
      binary64.hdiv md (if 2 ≤ k then binary64.hsub md 0x3FF0000000000000 (binary64.hsub md u x) else binary64.hsub md x (binary64.hsub md u 0x3FF0000000000000)) u
    else 0
  let hu := ((hu &&& 0xfffff) + 0x3fe6a09e) % 2 ^ 32
  let iu := (hu <<< 32) ||| (u &&& 0xffffffff)
  (k, binary64.hsub md iu 0x3FF0000000000000, c)

/-- log1p_impl.hpp l.191-200: the kernel -/
def log1pKernel (md : Mode) (k : ℤ) (f c : ℕ) : ℕ :=
  let mul := binary64.hmul md
  let add := binary64.hadd md
  let s := binary64.hdiv md f (add 0x4000000000000000 f)
  let z := mul s s
  let w := mul z z
  let t1 := mul w (add l1pD2 (mul w (add l1pD4 (mul w l1pD6))))
  let t2 := mul z (add l1pD1 (mul w (add l1pD3 (mul w (add l1pD5 (mul w l1pD7))))))
  let r := add t2 t1
  let hfsq := mul (mul 0x3FE0000000000000 f) f
  let dk := binary64.ofInt md k
  add (add (binary64.hsub md (add (mul s (add hfsq r)) (add (mul dk logLn2lo) c)) hfsq) f) (mul dk logLn2hi)

/-- log1p_impl.hpp l.122-201 `log1p_double_impl`. `0x3FDA83A109D0635A` and `0xBFD2BEC2480E8C8B` are `0.414284` and `-0.292893` -/
def log1pDoubleImpl (md : Mode) (x : ℕ) : ℕ :=
  if binary64.hgt x 0x3FDA83A109D0635A || binary64.hlt x 0xBFD2BEC2480E8C8B then
    let u := binary64.hadd md 0x3FF0000000000000 x
    if binary64.heq u 0x3FF0000000000000 then x else logDoubleImpl md u
  else
    let hx := x >>> 32
    if hx < 0x3fda827a || hx >>> 31 ≠ 0 then
      if 0xbff00000 ≤ hx then
        if binary64.heq x 0xBFF0000000000000 then binary64.inf true else FPBits.quietNaN binary64 true 0
      else if (hx <<< 1) % 2 ^ 32 < (0x3ca00000 <<< 1) % 2 ^ 32 then x
      else if hx ≤ 0xbfd2bec4 then log1pKernel md 0 x 0
      else let (k, f, c) := log1pRed md x; log1pKernel md k f c
    else if 0x7ff00000 ≤ hx then x
    else let (k, f, c) := log1pRed md x; log1pKernel md k f c

/-- log1p_impl.hpp l.93-110: the float reduction. The subtractions of floats are float operations, `c /= u` is a division of doubles; the components `f` and `c` are doubles -/
def log1pRedf (md : Mode) (x : ℕ) : ℤ × ℕ × ℕ :=
  let u := binary32.hadd md 0x3F800000 x
  let iu := (u + (0x3f800000 - 0x3f3504f3)) % 2 ^ 32
  let k : ℤ := (iu >>> 23 : ℕ) - 0x7f
  let up := binary64.hcvt binary32 md
  let c := if k < 25 then
      binary64.hdiv md (up (if 2 ≤ k then binary32.hsub md 0x3F800000 (binary32.hsub md u x) else binary32.hsub md x (binary32.hsub md u 0x3F800000))) (up u)
    else 0
  let iu := ((iu &&& 0x7fffff) + 0x3f3504f3) % 2 ^ 32
  (k, up (binary32.hsub md iu 0x3F800000), c)

/-- log1p_impl.hpp l.112-120: the float kernel, evaluated in double -/
def log1pKernelf (md : Mode) (k : ℤ) (f c : ℕ) : ℕ :=
  let mul := binary64.hmul md
  let add := binary64.hadd md
  let s := binary64.hdiv md f (add 0x4000000000000000 f)
  let z := mul s s
  let w := mul z z
  let t1 := mul w (add l1pF2 (mul w l1pF4))
  let t2 := mul z (add l1pF1 (mul w l1pF3))
  let r := add t2 t1
  let hfsq := mul (mul 0x3FE0000000000000 f) f
  let dk := binary64.ofInt md k
  binary32.hcvt binary64 md (add (add (binary64.hsub md (add (mul s (add hfsq r)) (add (mul dk l1pFlo) c)) hfsq) f) (mul dk l1pFhi))

/-- log1p_impl.hpp l.47-120 `log1p_float_impl`. `0x3ED41D08` and `0xBE95F612` are `0.414284F` and `-0.292893F` -/
def log1pFloatImpl (md : Mode) (x : ℕ) : ℕ :=
  if binary32.hgt x 0x3ED41D08 || binary32.hlt x 0xBE95F612 then
    let u := binary32.hadd md 0x3F800000 x
    if binary32.heq u 0x3F800000 then x else logFloatImpl md u
  else
    if x < 0x3ed413d0 || x >>> 31 ≠ 0 then
      if 0xbf800000 ≤ x then
        if binary32.heq x 0xBF800000 then binary32.inf true else FPBits.quietNaN binary32 true 0
      else if (x <<< 1) % 2 ^ 32 < (0x33800000 <<< 1) % 2 ^ 32 then x
      else if x ≤ 0xbe95f619 then log1pKernelf md 0 (binary64.hcvt binary32 md x) 0
      else let (k, f, c) := log1pRedf md x; log1pKernelf md k f c
    else if 0x7f800000 ≤ x then x
    else let (k, f, c) := log1pRedf md x; log1pKernelf md k f c

/-- log1p.hpp l.38-70 `ccm::log1p` and log1p_impl.hpp l.207-251: the tests before the kernel `impl` -/
def log1pTests (f : Fmt) (impl : ℕ → ℕ) (x : ℕ) : ℕ :=
  if f.heq x 0 then x
  else if isnan f x then FPBits.quietNaN f false 0
  else if f.heq x (f.inf false) then f.inf false
  else if f.heq x (FPBits.one f true) then f.inf true
  else if f.hlt x (FPBits.one f true) then FPBits.quietNaN f true 0
  else impl x

/-- `ccm::log1p<double>` -/
def log1pDouble (md : Mode) (x : ℕ) : ℕ := log1pTests binary64 (log1pDoubleImpl md) x
/-- `ccm::log1p<float>` -/
def log1pFloat (md : Mode) (x : ℕ) : ℕ := log1pTests binary32 (log1pFloatImpl md) x

end Verif.CC
