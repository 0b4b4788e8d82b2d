import Verif.Model.Basic
import Verif.Model.FpSupport
import Verif.Model.Dyadic

/-!
# exp, expm1 and exp2: `math/expo/impl/exp_double_impl.hpp`, `exp_float_impl.hpp`, `exp2_double_impl.hpp`, `exp2_float_impl.hpp` and their tables

`md` is the rounding mode of the arithmetic.  `ccm::double_t` is `double` and `narrow_eval` is the identity (`FLT_EVAL_METHOD` 0), and no
product and sum are contracted.  `std::uint64_t` and `std::uint32_t` values are natural numbers with the wrap-around written out.  Nothing in
these functions is undefined: every index into a table is a remainder.  Setting of `errno` and of exception flags is not modelled.
-/

namespace Verif.CC
open Fmt

/-- `math/expo/impl/exp_data.hpp` l.76-333 `exp_data<double>::tab`, equal to `exp2_data.hpp` l.70-327 `exp2_data<double>::tab`: entry `2 i` is the
bit pattern of the tail of `2^(i/128)`, entry `2 i + 1` that of its head less `i * 2^45` -/
def expTab : List ℕ := [
  0x0, 0x3ff0000000000000, 0x3c9b3b4f1a88bf6e, 0x3feff63da9fb3335, 0xbc7160139cd8dc5d, 0x3fefec9a3e778061,
  0xbc905e7a108766d1, 0x3fefe315e86e7f85, 0x3c8cd2523567f613, 0x3fefd9b0d3158574, 0xbc8bce8023f98efa, 0x3fefd06b29ddf6de,
  0x3c60f74e61e6c861, 0x3fefc74518759bc8, 0x3c90a3e45b33d399, 0x3fefbe3ecac6f383, 0x3c979aa65d837b6d, 0x3fefb5586cf9890f,
  0x3c8eb51a92fdeffc, 0x3fefac922b7247f7, 0x3c3ebe3d702f9cd1, 0x3fefa3ec32d3d1a2, 0xbc6a033489906e0b, 0x3fef9b66affed31b,
  0xbc9556522a2fbd0e, 0x3fef9301d0125b51, 0xbc5080ef8c4eea55, 0x3fef8abdc06c31cc, 0xbc91c923b9d5f416, 0x3fef829aaea92de0,
  0x3c80d3e3e95c55af, 0x3fef7a98c8a58e51, 0xbc801b15eaa59348, 0x3fef72b83c7d517b, 0xbc8f1ff055de323d, 0x3fef6af9388c8dea,
  0x3c8b898c3f1353bf, 0x3fef635beb6fcb75, 0xbc96d99c7611eb26, 0x3fef5be084045cd4, 0x3c9aecf73e3a2f60, 0x3fef54873168b9aa,
  0xbc8fe782cb86389d, 0x3fef4d5022fcd91d, 0x3c8a6f4144a6c38d, 0x3fef463b88628cd6, 0x3c807a05b0e4047d, 0x3fef3f49917ddc96,
  0x3c968efde3a8a894, 0x3fef387a6e756238, 0x3c875e18f274487d, 0x3fef31ce4fb2a63f, 0x3c80472b981fe7f2, 0x3fef2b4565e27cdd,
  0xbc96b87b3f71085e, 0x3fef24dfe1f56381, 0x3c82f7e16d09ab31, 0x3fef1e9df51fdee1, 0xbc3d219b1a6fbffa, 0x3fef187fd0dad990,
  0x3c8b3782720c0ab4, 0x3fef1285a6e4030b, 0x3c6e149289cecb8f, 0x3fef0cafa93e2f56, 0x3c834d754db0abb6, 0x3fef06fe0a31b715,
  0x3c864201e2ac744c, 0x3fef0170fc4cd831, 0x3c8fdd395dd3f84a, 0x3feefc08b26416ff, 0xbc86a3803b8e5b04, 0x3feef6c55f929ff1,
  0xbc924aedcc4b5068, 0x3feef1a7373aa9cb, 0xbc9907f81b512d8e, 0x3feeecae6d05d866, 0xbc71d1e83e9436d2, 0x3feee7db34e59ff7,
  0xbc991919b3ce1b15, 0x3feee32dc313a8e5, 0x3c859f48a72a4c6d, 0x3feedea64c123422, 0xbc9312607a28698a, 0x3feeda4504ac801c,
  0xbc58a78f4817895b, 0x3feed60a21f72e2a, 0xbc7c2c9b67499a1b, 0x3feed1f5d950a897, 0x3c4363ed60c2ac11, 0x3feece086061892d,
  0x3c9666093b0664ef, 0x3feeca41ed1d0057, 0x3c6ecce1daa10379, 0x3feec6a2b5c13cd0, 0x3c93ff8e3f0f1230, 0x3feec32af0d7d3de,
  0x3c7690cebb7aafb0, 0x3feebfdad5362a27, 0x3c931dbdeb54e077, 0x3feebcb299fddd0d, 0xbc8f94340071a38e, 0x3feeb9b2769d2ca7,
  0xbc87deccdc93a349, 0x3feeb6daa2cf6642, 0xbc78dec6bd0f385f, 0x3feeb42b569d4f82, 0xbc861246ec7b5cf6, 0x3feeb1a4ca5d920f,
  0x3c93350518fdd78e, 0x3feeaf4736b527da, 0x3c7b98b72f8a9b05, 0x3feead12d497c7fd, 0x3c9063e1e21c5409, 0x3feeab07dd485429,
  0x3c34c7855019c6ea, 0x3feea9268a5946b7, 0x3c9432e62b64c035, 0x3feea76f15ad2148, 0xbc8ce44a6199769f, 0x3feea5e1b976dc09,
  0xbc8c33c53bef4da8, 0x3feea47eb03a5585, 0xbc845378892be9ae, 0x3feea34634ccc320, 0xbc93cedd78565858, 0x3feea23882552225,
  0x3c5710aa807e1964, 0x3feea155d44ca973, 0xbc93b3efbf5e2228, 0x3feea09e667f3bcd, 0xbc6a12ad8734b982, 0x3feea012750bdabf,
  0xbc6367efb86da9ee, 0x3fee9fb23c651a2f, 0xbc80dc3d54e08851, 0x3fee9f7df9519484, 0xbc781f647e5a3ecf, 0x3fee9f75e8ec5f74,
  0xbc86ee4ac08b7db0, 0x3fee9f9a48a58174, 0xbc8619321e55e68a, 0x3fee9feb564267c9, 0x3c909ccb5e09d4d3, 0x3feea0694fde5d3f,
  0xbc7b32dcb94da51d, 0x3feea11473eb0187, 0x3c94ecfd5467c06b, 0x3feea1ed0130c132, 0x3c65ebe1abd66c55, 0x3feea2f336cf4e62,
  0xbc88a1c52fb3cf42, 0x3feea427543e1a12, 0xbc9369b6f13b3734, 0x3feea589994cce13, 0xbc805e843a19ff1e, 0x3feea71a4623c7ad,
  0xbc94d450d872576e, 0x3feea8d99b4492ed, 0x3c90ad675b0e8a00, 0x3feeaac7d98a6699, 0x3c8db72fc1f0eab4, 0x3feeace5422aa0db,
  0xbc65b6609cc5e7ff, 0x3feeaf3216b5448c, 0x3c7bf68359f35f44, 0x3feeb1ae99157736, 0xbc93091fa71e3d83, 0x3feeb45b0b91ffc6,
  0xbc5da9b88b6c1e29, 0x3feeb737b0cdc5e5, 0xbc6c23f97c90b959, 0x3feeba44cbc8520f, 0xbc92434322f4f9aa, 0x3feebd829fde4e50,
  0xbc85ca6cd7668e4b, 0x3feec0f170ca07ba, 0x3c71affc2b91ce27, 0x3feec49182a3f090, 0x3c6dd235e10a73bb, 0x3feec86319e32323,
  0xbc87c50422622263, 0x3feecc667b5de565, 0x3c8b1c86e3e231d5, 0x3feed09bec4a2d33, 0xbc91bbd1d3bcbb15, 0x3feed503b23e255d,
  0x3c90cc319cee31d2, 0x3feed99e1330b358, 0x3c8469846e735ab3, 0x3feede6b5579fdbf, 0xbc82dfcd978e9db4, 0x3feee36bbfd3f37a,
  0x3c8c1a7792cb3387, 0x3feee89f995ad3ad, 0xbc907b8f4ad1d9fa, 0x3feeee07298db666, 0xbc55c3d956dcaeba, 0x3feef3a2b84f15fb,
  0xbc90a40e3da6f640, 0x3feef9728de5593a, 0xbc68d6f438ad9334, 0x3feeff76f2fb5e47, 0xbc91eee26b588a35, 0x3fef05b030a1064a,
  0x3c74ffd70a5fddcd, 0x3fef0c1e904bc1d2, 0xbc91bdfbfa9298ac, 0x3fef12c25bd71e09, 0x3c736eae30af0cb3, 0x3fef199bdd85529c,
  0x3c8ee3325c9ffd94, 0x3fef20ab5fffd07a, 0x3c84e08fd10959ac, 0x3fef27f12e57d14b, 0x3c63cdaf384e1a67, 0x3fef2f6d9406e7b5,
  0x3c676b2c6c921968, 0x3fef3720dcef9069, 0xbc808a1883ccb5d2, 0x3fef3f0b555dc3fa, 0xbc8fad5d3ffffa6f, 0x3fef472d4a07897c,
  0xbc900dae3875a949, 0x3fef4f87080d89f2, 0x3c74a385a63d07a7, 0x3fef5818dcfba487, 0xbc82919e2040220f, 0x3fef60e316c98398,
  0x3c8e5a50d5c192ac, 0x3fef69e603db3285, 0x3c843a59ac016b4b, 0x3fef7321f301b460, 0xbc82d52107b43e1f, 0x3fef7c97337b9b5f,
  0xbc892ab93b470dc9, 0x3fef864614f5a129, 0x3c74b604603a88d3, 0x3fef902ee78b3ff6, 0x3c83c5ec519d7271, 0x3fef9a51fbc74c83,
  0xbc8ff7128fd391f0, 0x3fefa4afa2a490da, 0xbc8dae98e223747d, 0x3fefaf482d8e67f1, 0x3c8ec3bc41aa2008, 0x3fefba1bee615a27,
  0x3c842b94c3a9eb32, 0x3fefc52b376bba97, 0x3c8a64a931d185ee, 0x3fefd0765b6e4540, 0xbc8e37bae43be3ed, 0x3fefdbfdad9cbe14,
  0x3c77893b4d91cd9d, 0x3fefe7c1819e90d8, 0x3c5305c14160cc89, 0x3feff3c22b8f71f1]

/-- `exp_data.hpp` l.38-44 `exp_data<float>::tab`, equal to `exp2_data.hpp` l.39-45 `exp2_data<float>::tab` -/
def expTabf : List ℕ := [
  0x3ff0000000000000, 0x3fefd9b0d3158574, 0x3fefb5586cf9890f, 0x3fef9301d0125b51, 0x3fef72b83c7d517b, 0x3fef54873168b9aa,
  0x3fef387a6e756238, 0x3fef1e9df51fdee1, 0x3fef06fe0a31b715, 0x3feef1a7373aa9cb, 0x3feedea64c123422, 0x3feece086061892d,
  0x3feebfdad5362a27, 0x3feeb42b569d4f82, 0x3feeab07dd485429, 0x3feea47eb03a5585, 0x3feea09e667f3bcd, 0x3fee9f75e8ec5f74,
  0x3feea11473eb0187, 0x3feea589994cce13, 0x3feeace5422aa0db, 0x3feeb737b0cdc5e5, 0x3feec49182a3f090, 0x3feed503b23e255d,
  0x3feee89f995ad3ad, 0x3feeff76f2fb5e47, 0x3fef199bdd85529c, 0x3fef3720dcef9069, 0x3fef5818dcfba487, 0x3fef7c97337b9b5f,
  0x3fefa4afa2a490da, 0x3fefd0765b6e4540]

/-- `exp_data.hpp` l.56 `invln2N` = `0x1.71547652b82fep0 * 128` -/
def expInvLn2N : ℕ := 0x40671547652B82FE
/-- `exp_data.hpp` l.37, l.57 `shift` = `0x1.8p52` -/
def expShift : ℕ := 0x4338000000000000
/-- `exp_data.hpp` l.58 `negln2hiN` = `-0x1.62e42fefa0000p-8` -/
def expNegLn2Hi : ℕ := 0xBF762E42FEFA0000
/-- `exp_data.hpp` l.59 `negln2loN` = `-0x1.cf79abc9e3b3ap-47` -/
def expNegLn2Lo : ℕ := 0xBD0CF79ABC9E3B3A
/-- `exp_data.hpp` l.67 `poly[0]` = `0x1.ffffffffffdbdp-2` -/
def expC2 : ℕ := 0x3FDFFFFFFFFFFDBD
/-- `exp_data.hpp` l.68 `poly[1]` = `0x1.555555555543cp-3` -/
def expC3 : ℕ := 0x3FC555555555543C
/-- `exp_data.hpp` l.69 `poly[2]` = `0x1.55555cf172b91p-5` -/
def expC4 : ℕ := 0x3FA55555CF172B91
/-- `exp_data.hpp` l.70 `poly[3]` = `0x1.1111167a4d017p-7` -/
def expC5 : ℕ := 0x3F81111167A4D017
/-- `exp_data.hpp` l.36 `invln2_scaled` = `0x1.71547652b82fep0 * 32` -/
def expInvLn2f : ℕ := 0x40471547652B82FE
/-- `exp_data.hpp` l.47 `poly_scaled[0]` = `0x1.c6af84b912394p-5 / 2^15` -/
def expCf0 : ℕ := 0x3EBC6AF84B912394
/-- `exp_data.hpp` l.48 `poly_scaled[1]` = `0x1.ebfce50fac4f3p-3 / 2^10` -/
def expCf1 : ℕ := 0x3F2EBFCE50FAC4F3
/-- `exp_data.hpp` l.49 `poly_scaled[2]` = `0x1.62e42ff0c52d6p-1 / 2^5` -/
def expCf2 : ℕ := 0x3F962E42FF0C52D6
/-- `exp2_data.hpp` l.59 `shift` = `0x1.8p52 / 128` -/
def exp2Shift : ℕ := 0x42C8000000000000
/-- `exp2_data.hpp` l.67 `poly[0]` = `0x1.62e42fefa39efp-1` -/
def exp2C1 : ℕ := 0x3FE62E42FEFA39EF
/-- `exp2_data.hpp` l.67 `poly[1]` = `0x1.ebfbdff82c424p-3` -/
def exp2C2 : ℕ := 0x3FCEBFBDFF82C424
/-- `exp2_data.hpp` l.67 `poly[2]` = `0x1.c6b08d70cf4b5p-5` -/
def exp2C3 : ℕ := 0x3FAC6B08D70CF4B5
/-- `exp2_data.hpp` l.67 `poly[3]` = `0x1.3b2abd24650ccp-7` -/
def exp2C4 : ℕ := 0x3F83B2ABD24650CC
/-- `exp2_data.hpp` l.67 `poly[4]` = `0x1.5d7e09b4e3a84p-10` -/
def exp2C5 : ℕ := 0x3F55D7E09B4E3A84
/-- `exp2_data.hpp` l.32 `shift_scaled` = `0x1.8p52 / 32` -/
def exp2Shiftf : ℕ := 0x42E8000000000000
/-- `exp2_data.hpp` l.34 `poly[0]` = `0x1.c6af84b912394p-5` -/
def exp2Cf0 : ℕ := 0x3FAC6AF84B912394
/-- `exp2_data.hpp` l.34 `poly[1]` = `0x1.ebfce50fac4f3p-3` -/
def exp2Cf1 : ℕ := 0x3FCEBFCE50FAC4F3
/-- `exp2_data.hpp` l.34 `poly[2]` = `0x1.62e42ff0c52d6p-1` -/
def exp2Cf2 : ℕ := 0x3FE62E42FF0C52D6

/-- `exp_double_impl.hpp` l.36-72 `handle_special_case`; with `big` = 1009 and `scl` = `2^1009`.  `exp2_double_impl.hpp` l.29-68
`handle_special_cases` is the same with `big` = 1 and `scl` = 2. -/
def expSpecial (big scl : ℕ) (md : Mode) (tmp signBits ki : ℕ) : ℕ :=
  if ki &&& 0x80000000 = 0 then
    let scale := (signBits + 2 ^ 64 - big * 2 ^ 52) % 2 ^ 64
    binary64.hmul md scl (binary64.hadd md scale (binary64.hmul md scale tmp))
  else
    let scale := (signBits + 1022 * 2 ^ 52) % 2 ^ 64
    let r := binary64.hadd md scale (binary64.hmul md scale tmp)
    let r :=
      if binary64.hlt r 0x3FF0000000000000 then
        let lo := binary64.hadd md (binary64.hsub md scale r) (binary64.hmul md scale tmp)
        let hi := binary64.hadd md 0x3FF0000000000000 r
        let lo := binary64.hadd md (binary64.hadd md (binary64.hsub md 0x3FF0000000000000 hi) r) lo
        let r := binary64.hsub md (binary64.hadd md hi lo) 0x3FF0000000000000
        if binary64.heq r 0 then 0 else r
      else r
    binary64.hmul md 0x0010000000000000 r

/-- What `exp_double_impl` (l.115-138) and `expm1_kernel` (l.189-205) have in common, namely everything between the tests on the argument and the
use of the result: `tmp`, `sign_bits` and `expo_int64`. -/
def expParts (md : Mode) (x : ℕ) : ℕ × ℕ × ℕ :=
  let z := binary64.hmul md expInvLn2N x
  let kd := binary64.hadd md z expShift
  let ki := kd
  let kd := binary64.hsub md kd expShift
  let r := binary64.hadd md (binary64.hadd md x (binary64.hmul md kd expNegLn2Hi)) (binary64.hmul md kd expNegLn2Lo)
  let idx := 2 * (ki % 128)
  let top := (ki <<< 45) % 2 ^ 64
  let tail := expTab.getD idx 0
  let signBits := (expTab.getD (idx + 1) 0 + top) % 2 ^ 64
  let r2 := binary64.hmul md r r
  let tmp := binary64.hadd md
    (binary64.hadd md (binary64.hadd md tail r) (binary64.hmul md r2 (binary64.hadd md expC2 (binary64.hmul md r expC3))))
    (binary64.hmul md (binary64.hmul md r2 r2) (binary64.hadd md expC4 (binary64.hmul md r expC5)))
  (tmp, signBits, ki)

/-- l.74-145 `exp_double_impl` -/
def expDouble (md : Mode) (x : ℕ) : ℕ :=
  let absTop := (x >>> 52) &&& 0x7ff
  let big := (absTop + 2 ^ 32 - 0x3c9) % 2 ^ 32 ≥ 0x408 - 0x3c9
  if big ∧ (absTop + 2 ^ 32 - 0x3c9) % 2 ^ 32 ≥ 0x80000000 then binary64.hadd md 0x3FF0000000000000 x
  else if big ∧ absTop ≥ 0x409 then
    if x = 0xFFF0000000000000 then 0
    else if absTop ≥ 0x7ff then binary64.hadd md 0x3FF0000000000000 x
    else if x >>> 63 ≠ 0 then binary64.hmul md 0x1000000000000000 0x1000000000000000
    else binary64.hmul md 0x7000000000000000 0x7000000000000000
  else
    let (tmp, signBits, ki) := expParts md x
    if big then expSpecial 1009 0x7F00000000000000 md tmp signBits ki
    else binary64.hadd md signBits (binary64.hmul md signBits tmp)

/-- l.147-151 `expm1_series`; the quotients `1.0 / 6.0` … are constants, rounded to nearest by the compiler -/
def expm1Series (md : Mode) (x : ℕ) : ℕ :=
  let x2 := binary64.hmul md x x
  let step := fun (c p : ℕ) => binary64.hadd md c (binary64.hmul md x p)
  binary64.hadd md x (binary64.hmul md x2 (step 0x3FE0000000000000 (step 0x3FC5555555555555 (step 0x3FA5555555555555 (step 0x3F81111111111111 (step 0x3F56C16C16C16C17 (step 0x3F2A01A01A01A01A 0x3EFA01A01A01A01A)))))))

/-- l.153-211 `expm1_kernel` -/
def expm1Kernel (md : Mode) (x : ℕ) : ℕ :=
  let absTop := (x >>> 52) &&& 0x7ff
  let big := (absTop + 2 ^ 32 - 0x3c9) % 2 ^ 32 ≥ 0x408 - 0x3c9
  if big ∧ (absTop + 2 ^ 32 - 0x3c9) % 2 ^ 32 ≥ 0x80000000 then x
  else if big ∧ absTop ≥ 0x409 then
    if x = 0xFFF0000000000000 then 0xBFF0000000000000
    else if absTop ≥ 0x7ff then binary64.hadd md x x
    else if x >>> 63 ≠ 0 then 0xBFF0000000000000
    else binary64.hmul md 0x7000000000000000 0x7000000000000000
  else
    let (tmp, signBits, ki) := expParts md x
    if big then expSpecial 1009 0x7F00000000000000 md tmp signBits ki
    else binary64.hsub md (binary64.hadd md signBits (binary64.hmul md signBits tmp)) 0x3FF0000000000000

/-- l.213-232 `expm1_double_impl` -/
def expm1Double (md : Mode) (x : ℕ) : ℕ :=
  if binary64.heq x 0 then x
  else if isnan binary64 x then binary64.qnan
  else if binary64.heq x (binary64.inf false) then binary64.inf false
  else if binary64.heq x (binary64.inf true) then 0xBFF0000000000000
  else if binary64.hge x 0x3FD0000000000000 ∨ binary64.hle x 0xBFD0000000000000 then expm1Kernel md x
  else if binary64.hgt x 0x3FB0000000000000 ∨ binary64.hlt x 0xBFB0000000000000 then
    let t := expm1Series md (binary64.hmul md x 0x3FE0000000000000)
    binary64.hmul md t (binary64.hadd md t 0x4000000000000000)
  else expm1Series md x

/-- `exp2_double_impl.hpp` l.112-132: `tmp`, `sign_bits` and `expo_int64` -/
def exp2Parts (md : Mode) (x : ℕ) : ℕ × ℕ × ℕ :=
  let kd := binary64.hadd md x exp2Shift
  let ki := kd
  let kd := binary64.hsub md kd exp2Shift
  let r := binary64.hsub md x kd
  let idx := 2 * (ki % 128)
  let top := (ki <<< 45) % 2 ^ 64
  let tail := expTab.getD idx 0
  let signBits := (expTab.getD (idx + 1) 0 + top) % 2 ^ 64
  let r2 := binary64.hmul md r r
  let tmp := binary64.hadd md
    (binary64.hadd md (binary64.hadd md tail (binary64.hmul md r exp2C1)) (binary64.hmul md r2 (binary64.hadd md exp2C2 (binary64.hmul md r exp2C3))))
    (binary64.hmul md (binary64.hmul md r2 r2) (binary64.hadd md exp2C4 (binary64.hmul md r exp2C5)))
  (tmp, signBits, ki)

/-- `exp2_double_impl.hpp` l.70-138 `exp2_double_impl`; the two sides of `2 * bits(x) > 2 * bits(928.0)` wrap around, dropping the sign -/
def exp2Double (md : Mode) (x : ℕ) : ℕ :=
  let absTop := (x >>> 52) &&& 0x7ff
  let big := (absTop + 2 ^ 32 - 0x3c9) % 2 ^ 32 ≥ 0x408 - 0x3c9
  if big ∧ (absTop + 2 ^ 32 - 0x3c9) % 2 ^ 32 ≥ 0x80000000 then binary64.hadd md x 0x3FF0000000000000
  else if big ∧ absTop ≥ 0x409 ∧ x = 0xFFF0000000000000 then 0
  else if big ∧ absTop ≥ 0x409 ∧ absTop ≥ 0x7ff then binary64.hadd md x 0x3FF0000000000000
  else if big ∧ absTop ≥ 0x409 ∧ x >>> 63 = 0 then binary64.hmul md 0x7000000000000000 0x7000000000000000
  else if big ∧ absTop ≥ 0x409 ∧ x ≥ 0xC090CC0000000000 then binary64.hmul md 0x1000000000000000 0x1000000000000000
  else
    let (tmp, signBits, ki) := exp2Parts md x
    if big ∧ (2 * x) % 2 ^ 64 > (2 * 0x408D000000000000) % 2 ^ 64 then expSpecial 1 0x4000000000000000 md tmp signBits ki
    else binary64.hadd md signBits (binary64.hmul md signBits tmp)

/-- What `exp_float_impl` (`exp_float_impl.hpp` l.69-92) and `expm1_kernel` (l.126-140) have in common: `scale` and the polynomial.  The argument
is the float converted to double, which is exact. -/
def expfParts (md : Mode) (xd : ℕ) : ℕ × ℕ :=
  let z := binary64.hmul md expInvLn2f xd
  let kd := binary64.hadd md z expShift
  let ki := kd
  let kd := binary64.hsub md kd expShift
  let r := binary64.hsub md z kd
  let scale := (expTabf.getD (ki % 32) 0 + (ki <<< 47) % 2 ^ 64) % 2 ^ 64
  let p := binary64.hadd md (binary64.hmul md expCf0 r) expCf1
  let r2 := binary64.hmul md r r
  let y := binary64.hadd md (binary64.hmul md expCf2 r) 0x3FF0000000000000
  let y := binary64.hadd md (binary64.hmul md p r2) y
  (scale, y)

/-- `exp_float_impl.hpp` l.36-95 `exp_float_impl` -/
def expFloat (md : Mode) (x : ℕ) : ℕ :=
  let absTop := (x >>> 20) &&& 0x7ff
  if absTop ≥ 0x42b ∧ x = 0xFF800000 then 0
  else if absTop ≥ 0x42b ∧ absTop ≥ 0x7f8 then binary32.hadd md x x
  else if absTop ≥ 0x42b ∧ binary32.hgt x 0x42B17217 then binary32.hmul md 0x70000000 0x70000000
  else if absTop ≥ 0x42b ∧ binary32.hlt x 0xC2CFF1B4 then binary32.hmul md 0x1A200000 0x1A200000
  else
    let (scale, y) := expfParts md (binary64.hcvt binary32 md x)
    binary32.hcvt binary64 md (binary64.hmul md scale y)

/-- l.97-101 `expm1_series` (float) -/
def expm1Seriesf (md : Mode) (x : ℕ) : ℕ :=
  let x2 := binary32.hmul md x x
  let step := fun (c p : ℕ) => binary32.hadd md c (binary32.hmul md x p)
  binary32.hadd md x (binary32.hmul md x2 (step 0x3F000000 (step 0x3E2AAAAB (step 0x3D2AAAAB (step 0x3C088889 0x3AB60B61)))))

/-- l.103-144 `expm1_kernel` (float) -/
def expm1Kernelf (md : Mode) (x : ℕ) : ℕ :=
  let absTop := (x >>> 20) &&& 0x7ff
  if absTop ≥ 0x42b ∧ x = 0xFF800000 then 0xBF800000
  else if absTop ≥ 0x42b ∧ absTop ≥ 0x7f8 then binary32.hadd md x x
  else if absTop ≥ 0x42b ∧ binary32.hgt x 0x42B17217 then binary32.hmul md 0x70000000 0x70000000
  else if absTop ≥ 0x42b ∧ binary32.hlt x 0xC2CFF1B4 then 0xBF800000
  else
    let (scale, y) := expfParts md (binary64.hcvt binary32 md x)
    binary32.hcvt binary64 md (binary64.hsub md (binary64.hmul md scale y) 0x3FF0000000000000)

/-- l.146-165 `expm1_float_impl` -/
def expm1Float (md : Mode) (x : ℕ) : ℕ :=
  if binary32.heq x 0 then x
  else if isnan binary32 x then binary32.qnan
  else if binary32.heq x (binary32.inf false) then binary32.inf false
  else if binary32.heq x (binary32.inf true) then 0xBF800000
  else if binary32.hge x 0x3E800000 ∨ binary32.hle x 0xBE800000 then expm1Kernelf md x
  else if binary32.hgt x 0x3D800000 ∨ binary32.hlt x 0xBD800000 then
    let t := expm1Seriesf md (binary32.hmul md x 0x3F000000)
    binary32.hmul md t (binary32.hadd md t 0x40000000)
  else expm1Seriesf md x

/-- `exp2_float_impl.hpp` l.33-51 `exp2_float_overflow_result` -/
def exp2fOverflow (md : Mode) : ℕ :=
  match md with
  | .down | .zero => FPBits.maxNormal binary32 false
  | .up | .nearest => FPBits.inf binary32 false

/-- l.53-64 `exp2_float_underflow_result` -/
def exp2fUnderflow (md : Mode) : ℕ := if md = .up then FPBits.minSubnormal binary32 false else 0

/-- l.66-120 `exp2_float_impl` -/
def exp2Float (md : Mode) (x : ℕ) : ℕ :=
  let absTop := (x >>> 20) &&& 0x7ff
  if absTop ≥ 0x430 ∧ FPBits.isInf binary32 x then (if FPBits.isNeg binary32 x then 0 else x)
  else if absTop ≥ 0x430 ∧ FPBits.isNan binary32 x then binary32.hadd md x x
  else if absTop ≥ 0x430 ∧ binary32.hgt x 0 then exp2fOverflow md
  else if absTop ≥ 0x430 ∧ binary32.hle x 0xC3160000 then exp2fUnderflow md
  else if absTop ≥ 0x430 ∧ binary32.hlt x 0xC3150000 then exp2fUnderflow md
  else
    let xd := binary64.hcvt binary32 md x
    let kd := binary64.hadd md xd exp2Shiftf
    let ki := kd
    let kd := binary64.hsub md kd exp2Shiftf
    let r := binary64.hsub md xd kd
    let scale := (expTabf.getD (ki % 32) 0 + (ki <<< 47) % 2 ^ 64) % 2 ^ 64
    let p := binary64.hadd md (binary64.hmul md exp2Cf0 r) exp2Cf1
    let r2 := binary64.hmul md r r
    let y := binary64.hadd md (binary64.hmul md exp2Cf2 r) 0x3FF0000000000000
    let y := binary64.hadd md (binary64.hmul md p r2) y
    binary32.hcvt binary64 md (binary64.hmul md y scale)

end Verif.CC
