import Verif.Model.Pow
import Verif.Model.Dyadic
import Verif.Model.FpSupport

/-!
# The logarithm/exponential kernel of `pow` for double (pow_impl/pow_impl.hpp l.36-57, l.417-751)

Parameters: `ce` is `is_constant_evaluated()`, `fused` says whether the target has a fused multiply-add (`support::multiply_add` then fuses).  `none` stands for
a table index out of range (`std::array::at` throws), a conversion to `int` of a value out of range, or a software fused multiply-add that does not return.
-/

namespace Verif
namespace CC
open Fmt

/-- support/common_math_constants.hpp l.97-108 `RD` -/
def powRD : List ℕ := [
  0x3ff0000000000000, 0x3fefc00000000000, 0x3fef800000000000, 0x3fef400000000000, 0x3fef000000000000, 0x3feec00000000000, 0x3fee800000000000, 0x3fee400000000000,
  0x3fee000000000000, 0x3fede00000000000, 0x3feda00000000000, 0x3fed600000000000, 0x3fed400000000000, 0x3fed000000000000, 0x3fecc00000000000, 0x3feca00000000000,
  0x3fec600000000000, 0x3fec400000000000, 0x3fec000000000000, 0x3febe00000000000, 0x3feba00000000000, 0x3feb800000000000, 0x3feb400000000000, 0x3feb200000000000,
  0x3feae00000000000, 0x3feac00000000000, 0x3fea800000000000, 0x3fea600000000000, 0x3fea400000000000, 0x3fea000000000000, 0x3fe9e00000000000, 0x3fe9c00000000000,
  0x3fe9800000000000, 0x3fe9600000000000, 0x3fe9400000000000, 0x3fe9200000000000, 0x3fe9000000000000, 0x3fe8c00000000000, 0x3fe8a00000000000, 0x3fe8800000000000,
  0x3fe8600000000000, 0x3fe8400000000000, 0x3fe8000000000000, 0x3fe7e00000000000, 0x3fe7c00000000000, 0x3fe7a00000000000, 0x3fe7800000000000, 0x3fe7600000000000,
  0x3fe7400000000000, 0x3fe7200000000000, 0x3fe7000000000000, 0x3fe6e00000000000, 0x3fe6c00000000000, 0x3fe6a00000000000, 0x3fe6800000000000, 0x3fe6600000000000,
  0x3fe6400000000000, 0x3fe6200000000000, 0x3fe6000000000000, 0x3fe5e00000000000, 0x3fe5c00000000000, 0x3fe5a00000000000, 0x3fe5800000000000, 0x3fe5600000000000,
  0x3fe5400000000000, 0x3fe5400000000000, 0x3fe5200000000000, 0x3fe5000000000000, 0x3fe4e00000000000, 0x3fe4c00000000000, 0x3fe4a00000000000, 0x3fe4a00000000000,
  0x3fe4800000000000, 0x3fe4600000000000, 0x3fe4400000000000, 0x3fe4200000000000, 0x3fe4000000000000, 0x3fe4000000000000, 0x3fe3e00000000000, 0x3fe3c00000000000,
  0x3fe3a00000000000, 0x3fe3a00000000000, 0x3fe3800000000000, 0x3fe3600000000000, 0x3fe3400000000000, 0x3fe3400000000000, 0x3fe3200000000000, 0x3fe3000000000000,
  0x3fe3000000000000, 0x3fe2e00000000000, 0x3fe2c00000000000, 0x3fe2c00000000000, 0x3fe2a00000000000, 0x3fe2800000000000, 0x3fe2800000000000, 0x3fe2600000000000,
  0x3fe2400000000000, 0x3fe2400000000000, 0x3fe2200000000000, 0x3fe2000000000000, 0x3fe2000000000000, 0x3fe1e00000000000, 0x3fe1c00000000000, 0x3fe1c00000000000,
  0x3fe1a00000000000, 0x3fe1a00000000000, 0x3fe1800000000000, 0x3fe1600000000000, 0x3fe1600000000000, 0x3fe1400000000000, 0x3fe1400000000000, 0x3fe1200000000000,
  0x3fe1000000000000, 0x3fe1000000000000, 0x3fe0e00000000000, 0x3fe0e00000000000, 0x3fe0c00000000000, 0x3fe0c00000000000, 0x3fe0a00000000000, 0x3fe0a00000000000,
  0x3fe0800000000000, 0x3fe0800000000000, 0x3fe0600000000000, 0x3fe0600000000000, 0x3fe0400000000000, 0x3fe0400000000000, 0x3fe0200000000000, 0x3fe0000000000000]

/-- support/common_math_constants.hpp l.114-126 `CD` -/
def powCD : List ℕ := [
  0x0, 0xbf10000000000000, 0xbf30000000000000, 0xbf42000000000000, 0xbf50000000000000, 0xbf59000000000000, 0xbf62000000000000, 0xbf68800000000000,
  0xbf70000000000000, 0xbf49000000000000, 0xbf5f000000000000, 0xbf69c00000000000, 0xbf30000000000000, 0xbf5c000000000000, 0xbf6b000000000000, 0xbf45000000000000,
  0xbf64000000000000, 0x3f10000000000000, 0xbf60000000000000, 0x3f3a000000000000, 0xbf5e000000000000, 0x3f38000000000000, 0xbf61000000000000, 0xbf00000000000000,
  0xbf66000000000000, 0xbf4a000000000000, 0xbf6e000000000000, 0xbf5f800000000000, 0xbf30000000000000, 0xbf6c000000000000, 0xbf5f000000000000, 0xbf3c000000000000,
  0xbf70000000000000, 0xbf65400000000000, 0xbf56000000000000, 0xbf24000000000000, 0x3f50000000000000, 0xbf68800000000000, 0xbf60800000000000, 0xbf52000000000000,
  0xbf30000000000000, 0x3f42000000000000, 0xbf70000000000000, 0xbf6ac00000000000, 0xbf66000000000000, 0xbf61c00000000000, 0xbf5c000000000000, 0xbf55800000000000,
  0xbf50000000000000, 0xbf47000000000000, 0xbf40000000000000, 0xbf36000000000000, 0xbf30000000000000, 0xbf2c000000000000, 0xbf30000000000000, 0xbf36000000000000,
  0xbf40000000000000, 0xbf47000000000000, 0xbf50000000000000, 0xbf55800000000000, 0xbf5c000000000000, 0xbf61c00000000000, 0xbf66000000000000, 0xbf6ac00000000000,
  0xbf70000000000000, 0x3f55000000000000, 0x3f42000000000000, 0xbf30000000000000, 0xbf52000000000000, 0xbf60800000000000, 0xbf68800000000000, 0x3f60c00000000000,
  0x3f50000000000000, 0xbf24000000000000, 0xbf56000000000000, 0xbf65400000000000, 0xbf70000000000000, 0x3f50000000000000, 0xbf3c000000000000, 0xbf5f000000000000,
  0xbf6c000000000000, 0x3f56800000000000, 0xbf30000000000000, 0xbf5f800000000000, 0xbf6e000000000000, 0x3f51000000000000, 0xbf4a000000000000, 0xbf66000000000000,
  0x3f60000000000000, 0xbf00000000000000, 0xbf61000000000000, 0x3f64800000000000, 0x3f38000000000000, 0xbf5e000000000000, 0x3f66000000000000, 0x3f3a000000000000,
  0xbf60000000000000, 0x3f64800000000000, 0x3f10000000000000, 0xbf64000000000000, 0x3f60000000000000, 0xbf45000000000000, 0xbf6b000000000000, 0x3f51000000000000,
  0xbf5c000000000000, 0x3f65400000000000, 0xbf30000000000000, 0xbf69c00000000000, 0x3f52000000000000, 0xbf5f000000000000, 0x3f63000000000000, 0xbf49000000000000,
  0xbf70000000000000, 0x3f30000000000000, 0xbf68800000000000, 0x3f52800000000000, 0xbf62000000000000, 0x3f5f000000000000, 0xbf59000000000000, 0x3f64c00000000000,
  0xbf50000000000000, 0x3f69000000000000, 0xbf42000000000000, 0x3f6c400000000000, 0xbf30000000000000, 0x3f6e800000000000, 0xbf10000000000000, 0xbf70000000000000]

/-- support/common_math_constants.hpp l.341-360 `R2` -/
def powR2 : List ℕ := [
  0x3ff0101000000000, 0x3ff00fd000000000, 0x3ff00f9000000000, 0x3ff00f5000000000, 0x3ff00f1000000000, 0x3ff00ed000000000, 0x3ff00e9000000000, 0x3ff00e5000000000,
  0x3ff00e1000000000, 0x3ff00dd000000000, 0x3ff00d9000000000, 0x3ff00d5000000000, 0x3ff00d1000000000, 0x3ff00cd000000000, 0x3ff00c9000000000, 0x3ff00c5000000000,
  0x3ff00c1000000000, 0x3ff00bd000000000, 0x3ff00b9000000000, 0x3ff00b4000000000, 0x3ff00b0000000000, 0x3ff00ac000000000, 0x3ff00a8000000000, 0x3ff00a4000000000,
  0x3ff00a0000000000, 0x3ff009c000000000, 0x3ff0098000000000, 0x3ff0094000000000, 0x3ff0090000000000, 0x3ff008c000000000, 0x3ff0088000000000, 0x3ff0084000000000,
  0x3ff0080000000000, 0x3ff007c000000000, 0x3ff0078000000000, 0x3ff0074000000000, 0x3ff0070000000000, 0x3ff006c000000000, 0x3ff0068000000000, 0x3ff0064000000000,
  0x3ff0060000000000, 0x3ff005c000000000, 0x3ff0058000000000, 0x3ff0054000000000, 0x3ff0050000000000, 0x3ff004c000000000, 0x3ff0048000000000, 0x3ff0044000000000,
  0x3ff0040000000000, 0x3ff003c000000000, 0x3ff0038000000000, 0x3ff0034000000000, 0x3ff0030000000000, 0x3ff002c000000000, 0x3ff0028000000000, 0x3ff0024000000000,
  0x3ff0020000000000, 0x3ff001c000000000, 0x3ff0018000000000, 0x3ff0014000000000, 0x3ff0010000000000, 0x3ff000c000000000, 0x3ff0008000000000, 0x3ff0004000000000,
  0x3ff0000000000000, 0x3fefff8000000000, 0x3fefff0000000000, 0x3feffe8000000000, 0x3feffe0000000000, 0x3feffd8000000000, 0x3feffd0000000000, 0x3feffc8000000000,
  0x3feffc0000000000, 0x3feffb8000000000, 0x3feffb0000000000, 0x3feffa8000000000, 0x3feffa0000000000, 0x3feff98000000000, 0x3feff90000000000, 0x3feff88000000000,
  0x3feff80000000000, 0x3feff78000000000, 0x3feff70000000000, 0x3feff68000000000, 0x3feff60000000000, 0x3feff58000000000, 0x3feff50000000000, 0x3feff48000000000,
  0x3feff40000000000, 0x3feff38000000000, 0x3feff30000000000, 0x3feff28000000000, 0x3feff20000000000, 0x3feff18000000000, 0x3feff10000000000, 0x3feff08000000000,
  0x3feff00000000000, 0x3fefef8000000000, 0x3fefef0000000000, 0x3fefee8000000000, 0x3fefee0000000000, 0x3fefed8000000000, 0x3fefed0000000000, 0x3fefec8000000000,
  0x3fefec0000000000, 0x3fefeb8000000000, 0x3fefeb0000000000, 0x3fefea8000000000, 0x3fefea0000000000, 0x3fefe98000000000, 0x3fefe92000000000, 0x3fefe8a000000000,
  0x3fefe82000000000, 0x3fefe7a000000000, 0x3fefe72000000000, 0x3fefe6a000000000, 0x3fefe62000000000, 0x3fefe5a000000000, 0x3fefe52000000000, 0x3fefe4a000000000,
  0x3fefe42000000000, 0x3fefe3a000000000, 0x3fefe32000000000, 0x3fefe2a000000000, 0x3fefe22000000000, 0x3fefe1a000000000, 0x3fefe12000000000, 0x3fefe0a000000000,
  0x3fefe02000000000, 0x3fefdfa000000000, 0x3fefdf2000000000, 0x3fefdea000000000, 0x3fefde2000000000, 0x3fefdda000000000, 0x3fefdd2000000000, 0x3fefdca000000000,
  0x3fefdc2000000000, 0x3fefdba000000000, 0x3fefdb2000000000, 0x3fefdaa000000000, 0x3fefda2000000000, 0x3fefd9a000000000, 0x3fefd92000000000, 0x3fefd8c000000000,
  0x3fefd84000000000, 0x3fefd7c000000000, 0x3fefd74000000000, 0x3fefd6c000000000, 0x3fefd64000000000, 0x3fefd5c000000000, 0x3fefd54000000000, 0x3fefd4c000000000,
  0x3fefd44000000000, 0x3fefd3c000000000, 0x3fefd34000000000, 0x3fefd2c000000000, 0x3fefd24000000000, 0x3fefd1c000000000, 0x3fefd14000000000, 0x3fefd0c000000000,
  0x3fefd04000000000, 0x3fefcfc000000000, 0x3fefcf4000000000, 0x3fefcec000000000, 0x3fefce4000000000, 0x3fefcdc000000000, 0x3fefcd6000000000, 0x3fefcce000000000,
  0x3fefcc6000000000, 0x3fefcbe000000000, 0x3fefcb6000000000, 0x3fefcae000000000, 0x3fefca6000000000, 0x3fefc9e000000000, 0x3fefc96000000000, 0x3fefc8e000000000,
  0x3fefc86000000000, 0x3fefc7e000000000, 0x3fefc76000000000, 0x3fefc6e000000000, 0x3fefc66000000000, 0x3fefc5e000000000, 0x3fefc56000000000, 0x3fefc4e000000000,
  0x3fefc46000000000, 0x3fefc40000000000, 0x3fefc38000000000, 0x3fefc30000000000, 0x3fefc28000000000, 0x3fefc20000000000, 0x3fefc18000000000, 0x3fefc10000000000,
  0x3fefc08000000000]

/-- support/common_math_constants.hpp l.479-544 `EXP2_MID1`, the fields `hi` -/
def powExpHi : List ℕ := [
  0x3ff0000000000000, 0x3ff02c9a3e778061, 0x3ff059b0d3158574, 0x3ff0874518759bc8, 0x3ff0b5586cf9890f, 0x3ff0e3ec32d3d1a2, 0x3ff11301d0125b51, 0x3ff1429aaea92de0,
  0x3ff172b83c7d517b, 0x3ff1a35beb6fcb75, 0x3ff1d4873168b9aa, 0x3ff2063b88628cd6, 0x3ff2387a6e756238, 0x3ff26b4565e27cdd, 0x3ff29e9df51fdee1, 0x3ff2d285a6e4030b,
  0x3ff306fe0a31b715, 0x3ff33c08b26416ff, 0x3ff371a7373aa9cb, 0x3ff3a7db34e59ff7, 0x3ff3dea64c123422, 0x3ff4160a21f72e2a, 0x3ff44e086061892d, 0x3ff486a2b5c13cd0,
  0x3ff4bfdad5362a27, 0x3ff4f9b2769d2ca7, 0x3ff5342b569d4f82, 0x3ff56f4736b527da, 0x3ff5ab07dd485429, 0x3ff5e76f15ad2148, 0x3ff6247eb03a5585, 0x3ff6623882552225,
  0x3ff6a09e667f3bcd, 0x3ff6dfb23c651a2f, 0x3ff71f75e8ec5f74, 0x3ff75feb564267c9, 0x3ff7a11473eb0187, 0x3ff7e2f336cf4e62, 0x3ff82589994cce13, 0x3ff868d99b4492ed,
  0x3ff8ace5422aa0db, 0x3ff8f1ae99157736, 0x3ff93737b0cdc5e5, 0x3ff97d829fde4e50, 0x3ff9c49182a3f090, 0x3ffa0c667b5de565, 0x3ffa5503b23e255d, 0x3ffa9e6b5579fdbf,
  0x3ffae89f995ad3ad, 0x3ffb33a2b84f15fb, 0x3ffb7f76f2fb5e47, 0x3ffbcc1e904bc1d2, 0x3ffc199bdd85529c, 0x3ffc67f12e57d14b, 0x3ffcb720dcef9069, 0x3ffd072d4a07897c,
  0x3ffd5818dcfba487, 0x3ffda9e603db3285, 0x3ffdfc97337b9b5f, 0x3ffe502ee78b3ff6, 0x3ffea4afa2a490da, 0x3ffefa1bee615a27, 0x3fff50765b6e4540, 0x3fffa7c1819e90d8]

/-- support/common_math_constants.hpp l.479-544 `EXP2_MID1`, the fields `mid` -/
def powExpMid : List ℕ := [
  0x0, 0xbc719083535b085d, 0x3c8d73e2a475b465, 0x3c6186be4bb284ff, 0x3c98a62e4adc610b, 0x3c403a1727c57b53, 0xbc96c51039449b3a, 0xbc932fbf9af1369e,
  0xbc819041b9d78a76, 0x3c8e5b4c7b4968e4, 0x3c9e016e00a2643c, 0x3c8dc775814a8495, 0x3c99b07eb6c70573, 0x3c82bd339940e9d9, 0x3c8612e8afad1255, 0x3c90024754db41d5,
  0x3c86f46ad23182e4, 0x3c932721843659a6, 0xbc963aeabf42eae2, 0xbc75e436d661f5e3, 0x3c8ada0911f09ebc, 0xbc5ef3691c309278, 0x3c489b7a04ef80d0, 0x3c73c1a3b69062f0,
  0x3c7d4397afec42e2, 0xbc94b309d25957e3, 0xbc807abe1db13cad, 0x3c99bb2c011d93ad, 0x3c96324c054647ad, 0x3c9ba6f93080e65e, 0xbc9383c17e40b497, 0xbc9bb60987591c34,
  0xbc9bdd3413b26456, 0xbc6bbe3a683c88ab, 0xbc816e4786887a99, 0xbc90245957316dd3, 0xbc841577ee04992f, 0x3c705d02ba15797e, 0xbc9d4c1dd41532d8, 0xbc9fc6f89bd4f6ba,
  0x3c96e9f156864b27, 0x3c85cc13a2e3976c, 0xbc675fc781b57ebc, 0xbc9d185b7c1b85d1, 0x3c7c7c46b071f2be, 0xbc9359495d1cd533, 0xbc9d2f6edb8d41e1, 0x3c90fac90ef7fd31,
  0x3c97a1cd345dcc81, 0xbc62805e3084d708, 0xbc75584f7e54ac3b, 0x3c823dd07a2d9e84, 0x3c811065895048dd, 0x3c92884dff483cad, 0x3c7503cbd1e949db, 0xbc9cbc3743797a9c,
  0x3c82ed02d75b3707, 0x3c9c2300696db532, 0xbc91a5cd4f184b5c, 0x3c839e8980a9cc8f, 0xbc9e9c23179c2893, 0x3c9dc7f486a4b6b0, 0x3c99d3e12dd8a18b, 0x3c874853f3a5931e]

/-- pow_impl/powf_data.hpp l.38-167 `LOG2_R_TD`, the fields `hi` -/
def powLogHi : List ℕ := [
  0x0, 0x3f872c8000000000, 0x3f97440000000000, 0x3fa184c000000000, 0x3fa773a000000000, 0x3fad6ec000000000, 0x3fb1bb3000000000, 0x3fb4c56000000000,
  0x3fb7d60000000000, 0x3fb960d000000000, 0x3fbc7b5000000000, 0x3fbf9c9000000000, 0x3fc097e000000000, 0x3fc22db000000000, 0x3fc3c6f800000000, 0x3fc494f800000000,
  0x3fc633a800000000, 0x3fc7046000000000, 0x3fc8a89800000000, 0x3fc97c2000000000, 0x3fcb260000000000, 0x3fcbfc6800000000, 0x3fcdac2000000000, 0x3fce858000000000,
  0x3fd01d9c00000000, 0x3fd08bd000000000, 0x3fd169c000000000, 0x3fd1d98400000000, 0x3fd249cc00000000, 0x3fd32c0000000000, 0x3fd39de800000000, 0x3fd4106000000000,
  0x3fd4f6fc00000000, 0x3fd56b2400000000, 0x3fd5dfdc00000000, 0x3fd6552c00000000, 0x3fd6cb1000000000, 0x3fd7b8a000000000, 0x3fd8304c00000000, 0x3fd8a89800000000,
  0x3fd9218000000000, 0x3fd99b0800000000, 0x3fda8ff800000000, 0x3fdb0b6800000000, 0x3fdb877c00000000, 0x3fdc043800000000, 0x3fdc819c00000000, 0x3fdcffb000000000,
  0x3fdd7e6c00000000, 0x3fddfdd800000000, 0x3fde7df400000000, 0x3fdefec800000000, 0x3fdf804c00000000, 0x3fe0014400000000, 0x3fe042be00000000, 0x3fe0849400000000,
  0x3fe0c6ca00000000, 0x3fe1096000000000, 0x3fe14c5600000000, 0x3fe18fae00000000, 0x3fe1d36800000000, 0x3fe2178600000000, 0x3fe25c0a00000000, 0x3fe2a0f400000000,
  0x3fe2e64400000000, 0x3fe2e64400000000, 0x3fe32bfe00000000, 0x3fe3722200000000, 0x3fe3b8b200000000, 0x3fe3ffae00000000, 0x3fe4471600000000, 0x3fe4471600000000,
  0x3fe48ef000000000, 0x3fe4d73800000000, 0x3fe51ff200000000, 0x3fe5692200000000, 0x3fe5b2c400000000, 0x3fe5b2c400000000, 0x3fe5fcdc00000000, 0x3fe6476e00000000,
  0x3fe6927800000000, 0x3fe6927800000000, 0x3fe6ddfc00000000, 0x3fe729fe00000000, 0x3fe7767c00000000, 0x3fe7767c00000000, 0x3fe7c37a00000000, 0x3fe810fa00000000,
  0x3fe810fa00000000, 0x3fe85efe00000000, 0x3fe8ad8400000000, 0x3fe8ad8400000000, 0x3fe8fc9200000000, 0x3fe94c2800000000, 0x3fe94c2800000000, 0x3fe99c4800000000,
  0x3fe9ecf600000000, 0x3fe9ecf600000000, 0x3fea3e3000000000, 0x3fea8ffa00000000, 0x3fea8ffa00000000, 0x3feae25600000000, 0x3feb354600000000, 0x3feb354600000000,
  0x3feb88cc00000000, 0x3feb88cc00000000, 0x3febdcea00000000, 0x3fec31a200000000, 0x3fec31a200000000, 0x3fec86f800000000, 0x3fec86f800000000, 0x3fecdcec00000000,
  0x3fed338200000000, 0x3fed338200000000, 0x3fed8aba00000000, 0x3fed8aba00000000, 0x3fede29800000000, 0x3fede29800000000, 0x3fee3b2000000000, 0x3fee3b2000000000,
  0x3fee945200000000, 0x3fee945200000000, 0x3feeee3200000000, 0x3feeee3200000000, 0x3fef48c400000000, 0x3fef48c400000000, 0x3fefa40600000000, 0x3ff0000000000000]

/-- pow_impl/powf_data.hpp l.38-167 `LOG2_R_TD`, the fields `mid` -/
def powLogMid : List ℕ := [
  0x0, 0xbe6177c23362928c, 0xbe9179e0caa9c9ab, 0xbe8c6cea541f5b70, 0xbe966c4d4e554434, 0xbe770700a00fdd55, 0x3e853002a4e86631, 0x3e6fcd15f101c142,
  0x3e925b3eed319ced, 0xbe94195120d8486f, 0x3e845b878e27d0d9, 0x3e9770744593a4cb, 0x3e9c673032495d24, 0xbe91eaa65b49696e, 0x3e9b2866f2850b22, 0x3e68ee37cd2ea9d3,
  0x3e77e86f9c2154fb, 0x3e58e3cfc25f0ce6, 0x3e357f7a64ccd537, 0xbe9a761c09fbd2ae, 0x3e924bea9a2c66f3, 0xbe660002ccfe43f5, 0x3e969f220e97f22c, 0xbe96164f64c210e0,
  0xbe70c1678ae89767, 0xbe9f26a05c813d57, 0x3e74d8fc561c8d44, 0xbe9362ad8f7ca2d0, 0x3e92b13cd6c4d042, 0xbe91c8f11979a5db, 0x3e8c2ab3edefe569, 0x3e57c3eca28e69ca,
  0xbe734c4e99e1c6c6, 0xbe9194a871b63619, 0x3e8e3dd5c1c885ae, 0xbe86ccf3b1129b7c, 0xbe82f346e2bf924b, 0xbe8fa61aaa59c1d8, 0x3e990c11fd32a3ab, 0x3e457f7a64ccd537,
  0x3e4249ba76fee235, 0xbe8aad2729b21ae5, 0x3e971810a5e18180, 0xbe46172fe015e13c, 0x3e75ec6c1bfbf89a, 0x3e7678bf6cdedf51, 0x3e9c2d45fe43895e, 0xbe99ee52ed49d71d,
  0x3e45786af187a96b, 0x3e83ab0dc56138c9, 0x3e9fe538ab34efb5, 0xbe9e4fee07aa4b68, 0xbe9172f32fe67287, 0xbe99a83ff9ab9cc8, 0xbe968cb06cece193, 0x3e98cd71ddf82e20,
  0x3e95e18ab2df3ae6, 0x3e65dee4d9d8a273, 0x3e5fcd15f101c142, 0xbe82474b0f992ba1, 0x3e74b5a92a606047, 0x3e916186fcf54bbd, 0x3e418efabeb7d722, 0xbe7e5fc7d238691d,
  0x3e9f5809faf6283c, 0x3e9f5809faf6283c, 0x3e9c6e1dcd0cb449, 0x3e976e0e8f74b4d5, 0xbe7cb82c89692d99, 0xbe963161c5432aeb, 0x3e9458104c41b901, 0x3e9458104c41b901,
  0xbe9cd9d0cde578d5, 0x3e5b9884591add87, 0x3e9c6042978605ff, 0xbe9fc4c96b37dcf6, 0xbe72f346e2bf924b, 0xbe72f346e2bf924b, 0x3e9c4e4fbb68a4d1, 0xbe89d499bd9b3226,
  0xbe8f89b355ede26f, 0xbe8f89b355ede26f, 0x3e753c7e319f6e92, 0xbe9b291f070528c7, 0x3e62967a451a7b48, 0x3e62967a451a7b48, 0x3e9244fcff690fce, 0x3e846fd97f5dc572,
  0x3e846fd97f5dc572, 0xbe9f3a7352663e50, 0x3e8b3cda690370b5, 0x3e8b3cda690370b5, 0x3e83226b211bf1d9, 0x3e8d24b136c101ee, 0x3e8d24b136c101ee, 0x3e97c40c7907e82a,
  0xbe9e81781d97ee91, 0xbe9e81781d97ee91, 0xbe96a77813f94e01, 0xbe91cfdeb43cfd00, 0xbe91cfdeb43cfd00, 0xbe8f983f74d3138f, 0xbe8e278ae1a1f51f, 0xbe8e278ae1a1f51f,
  0xbe897552b7b5ea45, 0xbe897552b7b5ea45, 0xbe719b4f3c72c4f8, 0x3e8f7402d26f1a12, 0x3e8f7402d26f1a12, 0xbe82056d5dd31d96, 0xbe82056d5dd31d96, 0xbe76e46335aae723,
  0xbe9beb244c59f331, 0xbe9beb244c59f331, 0x3e416c071e93fd97, 0x3e416c071e93fd97, 0x3e9d8175819530c2, 0x3e9d8175819530c2, 0x3e851bd552842c1c, 0x3e851bd552842c1c,
  0x3e9914e204f19d94, 0x3e9914e204f19d94, 0x3e9c55d997da24fd, 0x3e9c55d997da24fd, 0xbe9685c2d2298a6e, 0xbe9685c2d2298a6e, 0x3e97a4887bd74039, 0x0]

/-- pow_impl/powf_data.hpp l.38-167 `LOG2_R_TD`, the fields `lo` -/
def powLogLo : List ℕ := [
  0x0, 0x3b084a2c615b70ad, 0xbb3f27b820fd03ea, 0xbb2f27ef487c8f34, 0xbb3e3f80fbc71454, 0xbb09f8ef14d5f6ee, 0x3b2452bbce7398c1, 0xbae990555535afd0,
  0x3b1447e30ad393ee, 0x3b3b7759da88a2da, 0x3b1cee7766ece702, 0xbb2a55c745ecdc2f, 0x3b2f7ec992caa67f, 0xbb2433638c6ece3e, 0x3b358f27b6518824, 0xbb086bdcfdfd4a4c,
  0xbafff7044a68a7fa, 0xbaeaa21694561327, 0xba8d209f2d4239c6, 0xbb3a55e97e60e632, 0x3b3261179225541e, 0xbad08fa30510fca9, 0xbb363ec8d56242f9, 0x3b38bcdaf0534365,
  0x3b11003282896056, 0x3b101bcc7025fa92, 0xbaffe8a8648e9ebc, 0x3b008dfb23650c75, 0xbb0f8d5a89861a5e, 0xbb3a1c872983511e, 0x3b2e8e21bff3336b, 0x3affd1994fb2c4a1,
  0x3af6b94b51cf76b1, 0xbb331d55da1d0f66, 0xbb2378b22691e28b, 0x3ac99e302970e411, 0x3ad20164a049664d, 0xbb2d14aac4d864c3, 0x3b0496ab4e4b293f, 0xba9d209f2d4239c6,
  0x3aeeae3326327bab, 0x3b2fa05bddfded8c, 0xbb2624140d175ba2, 0x3aef1c5160c515c1, 0xbb086a6204eec8c0, 0x3b1718f761dd3915, 0xbb3d4ee66c3700e4, 0xbb27d14533586306,
  0x3ae5ce9fb5a7bb5b, 0xbb2ae6face57ad3b, 0x3b15ac93b443d55f, 0x3b3f1753e0ae1e8f, 0x3b3cdfd4c297069b, 0x3b097a0e8f3ba742, 0xbb1800450f5b2357, 0xbb1a839041241fe7,
  0x3b1ed0b8eeccca86, 0x3b03dd41df9689b3, 0xbad990555535afd0, 0xbb21773d02c9055c, 0xbb14aeef330c53c1, 0x3b28e6ff749ebacb, 0x3abc09d761c548eb, 0x3b1aaa73a428e1e4,
  0xbb0af2f3d8b63fba, 0xbb0af2f3d8b63fba, 0x3b278de359f2bb88, 0xbb3415ae1a715618, 0xbb04991b5375621f, 0xbb3827d37deb2236, 0x3b29576edac01c78, 0x3b29576edac01c78,
  0xbb205a27b81e2219, 0x3ad237616778b4ba, 0x3b33b7d7e5d148bb, 0xbb0cc3f936a5977c, 0x3ac20164a049664d, 0x3ac20164a049664d, 0xbb2a212919a92f7a, 0xbb2b64b03f7230dd,
  0xbb21ec6379e6e3b9, 0xbb21ec6379e6e3b9, 0xbb14ba44c03bfbbd, 0xbb2c36fc650d030f, 0xbaf69e5693a7f067, 0xbaf69e5693a7f067, 0x3b36598aae91499a, 0x3b299d61ec432837,
  0x3b299d61ec432837, 0x3b3855c42078f81b, 0xbb259408e8151070, 0xbb259408e8151070, 0x3b133b318085e50a, 0x3b0343fe7c9cb4ae, 0x3b0343fe7c9cb4ae, 0xbb3d19522e56fe60,
  0xbb223b9d8ea55c3e, 0xbb223b9d8ea55c3e, 0x3b1829440c24aeb6, 0xbb3624140d175ba2, 0xbb3624140d175ba2, 0x3b2afa6f024fb045, 0xbb1603ad3a5d326d, 0xbb1603ad3a5d326d,
  0xbb20c1e0e5855d6a, 0xbb20c1e0e5855d6a, 0x3b1c817ad56baa16, 0x3b244c47ac1bf62b, 0x3b244c47ac1bf62b, 0xbb169b9465eae1e6, 0xbb169b9465eae1e6, 0xbb024a6d9d1d1904,
  0xbb33826144575ac4, 0xbb33826144575ac4, 0x3aedbc96b3b12b25, 0x3aedbc96b3b12b25, 0x3b268a8ccdbd1f33, 0x3b268a8ccdbd1f33, 0x3b0e586711df5ea1, 0x3b0e586711df5ea1,
  0xbb0bc25adf042483, 0xbb0bc25adf042483, 0x3b3d7d82b65c5686, 0x3b3d7d82b65c5686, 0xbb23f108c0857ca3, 0xbb23f108c0857ca3, 0xbb1bd800bca7a221, 0x0]

/-- pow_impl/powf_data.hpp l.178-372 `LOG2_R2_DD`, the second members (fields `lo`, the large parts) -/
def powLog2Big : List ℕ := [
  0xbf7720c2ab2312a9, 0xbf76c4c92b1478ff, 0xbf7668ce3c873549, 0xbf760cd1df6fde91, 0xbf75b0d413c30b5e, 0xbf7554d4d97551ab, 0xbf74f8d4307b46ec, 0xbf749cd218c9800b,
  0xbf7440ce9254916c, 0xbf73e4c99d110ee7, 0xbf7388c338f38bd0, 0xbf732cbb65f09aee, 0xbf72d0b223fcce81, 0xbf7274a7730cb841, 0xbf72189b5314e95d, 0xbf71bc8dc409f279,
  0xbf71607ec5e063b3, 0xbf71046e588ccca0, 0xbf70a85c7c03bc4a, 0xbf70354423e3c666, 0xbf6fb25e19f11aec, 0xbf6efa310d6550ec, 0xbf6e4201220d4858, 0xbf6d89ce57d219a6,
  0xbf6cd198ae9cdc3d, 0xbf6c19602656a671, 0xbf6b6124bee88d82, 0xbf6aa8e6783ba5a2, 0xbf69f0a5523901eb, 0xbf6938614cc9b468, 0xbf68801a67d6ce10, 0xbf67c7d0a3495ec9,
  0xbf670f83ff0a7565, 0xbf6657347b031fa2, 0xbf659ee2171c6a2f, 0xbf64e68cd33f60a3, 0xbf642e34af550d87, 0xbf6375d9ab467a4d, 0xbf62bd7bc6fcaf56, 0xbf62051b0260b3f0,
  0xbf614cb75d5b8e54, 0xbf609450d7d643a9, 0xbf5fb7cee373b008, 0xbf5e46f655de9cc6, 0xbf5cd61806bf5166, 0xbf5b6533f5e7cf9b, 0xbf59f44a232a16ee, 0xbf58835a8e5824c3,
  0xbf5712653743f454, 0xbf55a16a1dbf7eb6, 0xbf543069419cbad5, 0xbf52bf62a2ad9d74, 0xbf514e5640c41930, 0xbf4fba8837643cf6, 0xbf4cd85866933743, 0xbf49f61d0eb8f98b,
  0xbf4713d62f7957c3, 0xbf443183c878218d, 0xbf414f25d959223a, 0xbf3cd978c3804191, 0xbf37148ec2a1bfc9, 0xbf314f8daf5e3bcf, 0xbf2714eb11fa5363, 0xbf1715193b17d35d,
  0x0, 0x3f17157590356aee, 0x3f2715a3bc3593d5, 0x3f31505d6ee104c5, 0x3f3716001718cb2b, 0x3f3cdbb9d77ae5a8, 0x3f4150c5586012b8, 0x3f4433b951d0b231,
  0x3f4716b8d86bc285, 0x3f49f9c3ec8db94f, 0x3f4cdcda8e93107f, 0x3f4fbffcbed8465f, 0x3f5151953edceec6, 0x3f52c331e5ca2e7d, 0x3f5434d4546227fc, 0x3f55a67c8ad32315,
  0x3f57182a894b69c6, 0x3f5889de4ff94838, 0x3f59fb97df0b0cc2, 0x3f5b6d5736af07e6, 0x3f5cdf1c57138c53, 0x3f5e50e74066eee6, 0x3f5fc2b7f2d786a5, 0x3f609a473749d663,
  0x3f61533559e4de55, 0x3f620c26615409f1, 0x3f62c51a4dae8915, 0x3f637e111f0b8cb5, 0x3f64370ad58246dd, 0x3f64f0077129eab0, 0x3f65a906f219ac67, 0x3f6662095868c153,
  0x3f671b0ea42e5fda, 0x3f67d416d581bf7c, 0x3f688d21ec7a18cd, 0x3f69462fe92ea57c, 0x3f69ff40cbb6a04b, 0x3f6ab85494294517, 0x3f6b716b429dd0d3, 0x3f6c2a84d72b8189,
  0x3f6ce3a151e9965b, 0x3f6d9cc0b2ef4f83, 0x3f6e55e2fa53ee53, 0x3f6f0f08282eb533, 0x3f6fc8303c96e7a6, 0x3f7040ad9bd1e522, 0x3f70861eadabc3dc, 0x3f70e2b6b51e4f7e,
  0x3f713f5030033459, 0x3f719beb1e6616c9, 0x3f71f88780529bb1, 0x3f72552555d46886, 0x3f72b1c49ef72343, 0x3f730e655bc67275, 0x3f736b078c4dfd31, 0x3f73c7ab30996b1c,
  0x3f74245048b46462, 0x3f7480f6d4aa91c2, 0x3f74dd9ed4879c82, 0x3f753a4848572e77, 0x3f7596f33024f203, 0x3f75f39f8bfc9212, 0x3f76504d5be9ba1e, 0x3f76acfc9ff8162f,
  0x3f7709ad583352d6, 0x3f77665f84a71d35, 0x3f77c313255f22f8, 0x3f781fc83a671257, 0x3f787c7ec3ca9a19, 0x3f78d936c1956991, 0x3f7935f033d3309e, 0x3f7992ab1a8f9fac,
  0x3f79ef6775d667b4, 0x3f7a4c2545b33a3e, 0x3f7aa8e48a31c95c, 0x3f7b05a5435dc7ad, 0x3f7b62677142e860, 0x3f7bbf2b13ecdf2f, 0x3f7c1bf02b676060, 0x3f7c6184f1b326d9,
  0x3f7cbe4c95b6c5ab, 0x3f7d1b15aeab217c, 0x3f7d77e03c9bf0a4, 0x3f7dd4ac3f94ea0a, 0x3f7e3179b7a1c520, 0x3f7e8e48a4ce39e7, 0x3f7eeb19072600ed, 0x3f7f47eadeb4d34d,
  0x3f7fa4be2b866ab0, 0x3f8000c976d340a6, 0x3f802f34929068f3, 0x3f805da069008be7, 0x3f808c0cfa298771, 0x3f80ba7a461139c8, 0x3f80e8e84cbd8169, 0x3f8117570e343d17,
  0x3f8145c68a7b4bdd, 0x3f817436c1988d0d, 0x3f81a2a7b391e040, 0x3f81d119606d2554, 0x3f81ff8bc8303c70, 0x3f822dfeeae10601, 0x3f8250d5bf952374, 0x3f827f4a29740a2f,
  0x3f82adbf4e50cdf9, 0x3f82dc352e315049, 0x3f830aabc91b72e0, 0x3f8339231f1517c1, 0x3f83679b30242139, 0x3f839613fc4e71dc, 0x3f83c48d8399ec85, 0x3f83f307c60c7455,
  0x3f842182c3abecb5, 0x3f844ffe7c7e3957, 0x3f847e7af0893e2f, 0x3f84acf81fd2df7e, 0x3f84db760a6101c9, 0x3f8509f4b03989dc, 0x3f85387411625ccc, 0x3f8566f42de15ff4,
  0x3f85957505bc78f6, 0x3f85b8562298c65b, 0x3f85e6d842633702, 0x3f86155b1d99f672, 0x3f8643deb442eb59, 0x3f8672630663fcad, 0x3f86a0e8140311aa, 0x3f86cf6ddd2611d4,
  0x3f86fdf461d2e4f8]

/-- pow_impl/powf_data.hpp l.178-372 `LOG2_R2_DD`, the first members (fields `hi`, the small parts) -/
def powLog2Small : List ℕ := [
  0x3c1ff25180953e64, 0xbc115ffd79560d8f, 0x3c1b8d6d6f2e3579, 0xbc15bfc3f0d5ef71, 0xbbfd1f7a8777984a, 0x3bd8e858515b8343, 0x3c1e165c4014c1f2, 0x3c00f84b2cc14c7e,
  0x3c1de618ed0db9a6, 0xbc1f6b8587e64f22, 0xbbf7f793c84cfa63, 0xbbe7d7ecf6258c9a, 0xbc1810bc5ac188f5, 0xbc1950035fc5b67c, 0x3c14f47f3048cdad, 0x3bb269519861e298,
  0xbc15c2b0a46a7e2f, 0x3c05001ac8f0bda8, 0x3c1106f246af5d41, 0x3bd82a00583b34ba, 0x3beb6f37deb31370, 0xbc044a2140444811, 0x3c0f5e68a763133f, 0x3c0692083115f0b9,
  0x3c0144bb17b9ac9c, 0x3c0ee7f086d32c05, 0xbc0d4f1167538dbe, 0x3c07df8d226c67e0, 0x3c060545d61b9512, 0x3c054c99c2917020, 0xbbfa7e678d7280de, 0xbbf6d419bbeb223a,
  0x3bfce2b9892e27e9, 0xbc0a4db4eff7bd61, 0x3c05bb04682fab82, 0xbbf78b8bfe6a3ade, 0x3c0574c3ce9b89b1, 0x3c008fb216647b7b, 0x3bded5a50e7b919c, 0x3c091ad7a23f86fe,
  0x3bf3ab2c932b8b0a, 0xbc0c63bcdf120f7a, 0x3bf8af8c4ab4e82d, 0x3bea52c2ca9d8b9b, 0xbbf460b177a58742, 0x3bd611089de8d12a, 0xbba4209853cee70c, 0x3bf964e032541a28,
  0xbbdfa9f94392637b, 0xbbf3293693721a53, 0xbbb6e2af03c83c6e, 0xbbeb5f05b9d5bd29, 0x3bf3db883c072f72, 0xbbba675a1c045304, 0x3bd3b9c2aeb00068, 0xbbd2911a381901eb,
  0xbbb5ea75a74def03, 0xbbc305b92f93ffe0, 0x3bbb7c8c8dd40d35, 0x3bddc915d58a62f6, 0x3bdc7bc3fe53cd94, 0xbbc427ce595cc53c, 0xbbcd523885ac824c, 0xbba945957f63330a,
  0x0, 0xbb988fb2ea8bf9ea, 0xbbb5aeaee345d04e, 0xbbd7fce430230132, 0xbb99a480f204ff09, 0xbbb00e7233f2d8bd, 0x3bc09d379fa18c5d, 0x3beb6b9d90a104d3,
  0x3be4d9a3ea651885, 0xbbc7590b3a76f0f9, 0x3bef183ca5b21bfe, 0xbbda7e3465ba1270, 0xbbf7821f738d1221, 0x3be3bb4c0fb95359, 0x3bf236028e962f80, 0x3bdaaaa64d30f184,
  0xbbfa821b7cc57a7a, 0xbbf13d9d78aace21, 0xbbf2f249a6b923a0, 0xbbbd47dc3664be7a, 0x3bfbd1522c6418fb, 0xbbfbacdbb22d2163, 0xbbfca7604812d77b, 0xbc02b6832f8830bf,
  0x3be4e712033d0457, 0xbbd473dd044017b5, 0xbc0e033bcac726d3, 0xbc04a47a2b18a0fa, 0x3bd6f3615771c17b, 0x3bec0ee6c32d6236, 0x3bffa94c99761b8f, 0xbbf979e6b473fbf8,
  0x3bf30edde8d24c7b, 0xbbfd01594fe1421c, 0x3c050bf7b995b49a, 0xbc028ea2bcec5018, 0x3beed6add489c30b, 0x3bf201d5c3bbeb69, 0xbbfa05d0d4461ea9, 0xbc07c974c8a392fd,
  0xbbff068238451bde, 0xbbd5e4d95c6259c3, 0xbc01fc262efaad6c, 0x3c049eee7abc7716, 0xbbe903de284d2782, 0xbc0ec564845134cb, 0xbbd7692b7791cf1f, 0xbc137829afb11c10,
  0x3c16706b91c3b0ba, 0xbc17558ccd710756, 0x3c179f72a5bbe9de, 0xbc1e1297c110b250, 0x3c129930d567ca26, 0x3bea08cbd7592a17, 0x3c1e4f9d4ac5db83, 0xbc1ed1b0aafd30c2,
  0x3c1e78f0aa014b32, 0x3ba8594548038a0f, 0x3c03df498168a333, 0x3c1b1c502544f82a, 0xbc0dc50552fe0da9, 0xbc1671d85c357d5e, 0x3bf1c670cabccefa, 0xbc19983a9e98f318,
  0x3c1ae1a26af3eebe, 0x3c1655eb510bfda3, 0xbbfe287bc0192e15, 0x3c0cc4944139ccbf, 0x3c14e09b4cb8645b, 0xbbf5becc991e3a5f, 0xbc1ddfa3f1e15ba8, 0xbc1b7b06ea3fb362,
  0x3c132d614904e46c, 0xbbf7186892b5bfae, 0xbc1d4de10b28dfd8, 0x3c14bb4b3bdc8175, 0x3c19cedbd1d7fba5, 0xbbd0ed3379beaffd, 0x3c16e86a125567a6, 0xbc135038e0c0a52c,
  0x3bc05ef8bf5adf5e, 0xbbeb7338b99a6b26, 0x3c09e901c30c427e, 0xbc11f28a9c0b3d47, 0xbc1140ef760d3b63, 0xbc0ab65b1037f517, 0xbc076940c457ce6d, 0x3bfda3ae65a605cf,
  0x3c1b15d0bce2ede6, 0x3c2e02aa1fa9dc57, 0x3c16be971a5565b9, 0xbbf8a9319a6ed164, 0x3c1825079f1e0ec5, 0x3c060d5749321466, 0xbc25b8f4c479e2e0, 0xbc1e3e1248004e29,
  0x3c09ac06487c3750, 0x3c1f657ea5c03ea4, 0xbc25a965659a05e2, 0xbc221ce9b9bfc512, 0xbc230fda247ad0e1, 0xbc1382c78a45cdea, 0x3c246ae4a64073d4, 0xbc1dcad2cec3b84b,
  0xbc2413fbeb0b0635, 0x3c2f28e6a48bcb90, 0xbc296f286e1eb086, 0xbc2f88c04206dfa1, 0xbc211ea20e195841, 0xbc0d6e71452b674a, 0xbc257c578233b1b3, 0xbc0ec430f03b76e0,
  0x3c2e00dd1902ffb9, 0xbc2f22bcd96afe38, 0x3c208fd90f841d30, 0x3c109594c5552bcc, 0xbc201a8a652e5602, 0xbbf826168febb3d0, 0xbc17eb21a35021e3, 0xbc266cbc818e1750,
  0x3bf9b784dd6cebda, 0x3c22b121ab482456, 0xbc15d29869dd8233, 0xbc2572a1b6cd63cf, 0xbc1a1f355360e877, 0xbc2b6f1cd2e1c03f, 0xbc22aaa11ccddcae, 0x3c23d979ddf4746c,
  0xbc0dc930484501f8]

/-- pow_impl.hpp l.83-86 `POW_LOG2_COEFFS` -/
def powLogC : List ℕ := [
  0x3ff71547652b82fe, 0xbfe71547652b82e7, 0x3fdec709dc3b1fd5, 0xbfd7154766124215, 0x3fd2776bd90259d8, 0xbfcec586c6f3d311, 0x3fc9c4775eccf524]

/-- pow_impl.hpp l.90-92 `POW_EXP2_COEFFS` -/
def powExpC : List ℕ := [
  0x3ff0000000000000, 0x3f862e42fefa39ef, 0x3f0ebfbdff82a23a, 0x3e8c6b08d7076268, 0x3e03b2ad33f8b48b, 0x3d75d870c4d84445]

/-- pow_impl.hpp l.97-101 `POW_DD_LOG2P_COEFFS` -/
def powDDLogC : List Pair := [
  { hi := 0x3ff71547652b82fe, lo := 0x3c7777d0ffda25e0 },
  { hi := 0xbfe71547652b82fe, lo := 0xbc6777d101cf0a84 },
  { hi := 0x3fdec709dc3a03fd, lo := 0x3c7ce04b5140d867 },
  { hi := 0xbfd71547652b82fb, lo := 0x3c7137b47e635be5 },
  { hi := 0x3fd2776c516a92a2, lo := 0xbc5b5a30b3bdb318 },
  { hi := 0xbfcec70af1929ca6, lo := 0x3c62d2fbd081e657 }]

/-- pow_impl.hpp l.104-115 `POW_DD_EXP2_COEFFS` -/
def powDDExpC : List Pair := [
  { hi := 0x3ff0000000000000, lo := 0x0 },
  { hi := 0x3f862e42fefa39ef, lo := 0x3c1abc9e3b398024 },
  { hi := 0x3f0ebfbdff82c58f, lo := 0xbba5e43a5429bddb },
  { hi := 0x3e8c6b08d704a0c0, lo := 0xbb2d33162491268f },
  { hi := 0x3e03b2ab6fba4e77, lo := 0x3a94fb32d240a14e },
  { hi := 0x3d75d87fe78a6731, lo := 0x39ee84e916be83e0 },
  { hi := 0x3ce430912f86bfb8, lo := 0xb989a447bfddc5e6 },
  { hi := 0x3c4ffcbfc588ded9, lo := 0xb8e31a55719de47f },
  { hi := 0x3bb62c034beb8339, lo := 0xb850ba57164eb36b },
  { hi := 0x3b1b5251ff97bee1, lo := 0xb7b8483eabd9642d }]

/-- l.52-56 `larger_exponent` -/
def largerExponent (a b : ℕ) : Bool := decide (FPBits.biasedExp binary64 a ≥ FPBits.biasedExp binary64 b)

/-- `static_cast<int>` of a double; undefined (`none`) unless the truncated value fits -/
def castInt32 (x : ℕ) : Option ℤ :=
  if binary64.mag x < binary64.infMag ∧ -(2 : ℤ) ^ 31 ≤ truncInt x ∧ truncInt x < (2 : ℤ) ^ 31 then some (truncInt x) else none

/-- `polyeval` (support/poly_eval.hpp l.33-39) on double-doubles with `multiply_add<DoubleDouble>` (types/double_double.hpp l.116-121): Horner's scheme,
`a0 + x * (a1 + x * (...))` -/
def ddPoly (m : Mode) (x : Pair) : List Pair → Option Pair
  | [] => none
  | [a] => some a
  | a :: as => do
    let r ← ddPoly m x as
    let q ← quickMult m x r
    return ddAdd binary64 m a q

/-- l.428-433: the second range reduction of `pow_double_double`; returns the index and `dx2` -/
def powReduce2 (ce fused : Bool) (m : Mode) (dx : ℕ) : Option (ℕ × Pair) := do
  let idx2 ← castInt32 (nearestInteger binary64 ce m (multiplyAdd binary64 fused m dx 0x40D0000000000000 0x4050000000000000)) -- 0x1.0p14, 0x1.0p6
  if idx2 < 0 then none
  let r2 ← powR2[idx2.toNat]?
  let onePlus := exactAdd binary64 m one64 dx
  let prod ← quickMultD m r2 onePlus
  let hi := binary64.hsub m prod.hi one64
  return (idx2.toNat, exactAdd binary64 m hi prod.lo)

/-- l.435-464: the double-double base-2 logarithm of `pow_double_double` -/
def powLog2 (ce fused : Bool) (m : Mode) (idx dx ex : ℕ) : Option Pair := do
  let (idx2, dx2) ← powReduce2 ce fused m dx
  let p ← ddPoly m dx2 powDDLogC
  let log1p ← quickMult m dx2 p
  let lrHi ← powLogHi[idx]?
  let lrMid ← powLogMid[idx]?
  let lrLo ← powLogLo[idx]?
  let r2Hi ← powLog2Big[idx2]?
  let r2Lo ← powLog2Small[idx2]?
  let mid := ddAdd binary64 m { hi := r2Hi, lo := r2Lo } { hi := lrMid, lo := lrLo }
  let low := if largerExponent mid.hi log1p.hi then ddAdd binary64 m mid log1p else ddAdd binary64 m log1p mid
  let hi := exactAdd binary64 m ex lrHi
  return if largerExponent hi.hi low.hi then ddAdd binary64 m hi low else ddAdd binary64 m low hi

/-- l.479-492, l.698-712: the bit pattern of `2^(hm >> 6) * 2^((hm & 63)/64)` as a pair, with the sign bit `sign` added.  The `int64` sums cannot overflow for
`|hm| < 2^16`; modelled modulo `2^64`. -/
def powExpHm (sign : Bool) (hm : ℤ) : Option Pair := do
  let idx := (hm % 64).toNat
  let k := hm / 64
  let h ← powExpHi[idx]?
  let l ← powExpMid[idx]?
  let s : ℤ := if sign then 2 ^ 63 else 0
  return { hi := ((k * 2 ^ 52 + h + s) % 2 ^ 64).toNat, lo := if idx ≠ 0 then ((k * 2 ^ 52 + l + s) % 2 ^ 64).toNat else s.toNat }

/-- `512.0 * 0x1.0p6` -/
def pow32768 : ℕ := 0x40E0000000000000
/-- `0x1.0p512` -/
def powScaleUp : ℕ := 0x5FF0000000000000
/-- `0x1.0p-512` -/
def powScaleDown : ℕ := 0x1FF0000000000000

/-- l.522-561: a subnormal result rounded straight onto the grid of the subnormals -/
def powSubnormal (m : Mode) (rr : Pair) : ℕ :=
  let neg := binary64.hlt rr.hi (binary64.zero false)
  let absHi := if neg then binary64.hneg rr.hi else rr.hi
  let absLo := if neg then binary64.hneg rr.lo else rr.lo
  let v := exactAdd binary64 m (binary64.hmul m absHi 0x6310000000000000) (binary64.hmul m absLo 0x6310000000000000) -- 0x1.0p562
  let units := truncInt v.hi
  let frac := binary64.hadd m (binary64.hsub m v.hi (binary64.ofInt m units)) v.lo
  let fneg := binary64.hlt frac (binary64.zero false)
  let units := if fneg then units - 1 else units
  let frac := if fneg then binary64.hadd m frac one64 else frac
  let inexact := !binary64.heq frac (binary64.zero false)
  let up : Bool :=
    match m with
    | .nearest => binary64.hgt frac half64 || (binary64.heq frac half64 && decide (units % 2 ≠ 0))
    | .up => !neg && inexact
    | .down => neg && inexact
    | .zero => false
  let units := if up then units + 1 else units
  let magnitude := binary64.hmul m (binary64.ofInt m units) 1 -- 0x1.0p-1074
  if neg then binary64.hneg magnitude else magnitude

/-- l.475-505: the double-double exponential of `pow_double_double`: `±2^(y6log/64)` as a pair -/
def powExp2 (ce : Bool) (m : Mode) (y6log : Pair) (sign : Bool) : Option Pair := do
  let hm := nearestInteger binary64 ce m y6log.hi
  let lo6hi := binary64.hsub m y6log.hi hm
  let lo6 := exactAdd binary64 m lo6hi y6log.lo
  let hmI ← castInt32 hm
  let ehm ← powExpHm sign hmI
  let pp ← ddPoly m lo6 powDDExpC
  quickMult m ehm pp

/-- l.417-564 `pow_double_double`; `ex` is `e_x` as a double -/
def powDoubleDouble (ce fused : Bool) (m : Mode) (idx dx ex y6 : ℕ) (sign : Bool) (scale : ℕ) : Option ℕ := do
  let log2x ← powLog2 ce fused m idx dx ex
  let y6l ← quickMultD m y6 log2x
  let y6l : Pair :=
    if scale ≠ one64 then
      { y6l with hi := binary64.hadd m y6l.hi (if binary64.hgt scale one64 then binary64.hneg pow32768 else pow32768) }
    else y6l
  let rr ← powExp2 ce m y6l sign
  let collapsed := binary64.hadd m rr.hi rr.lo
  let result := binary64.hmul m collapsed scale
  if binary64.hlt scale one64 && (FPBits.isSubnormal binary64 result || FPBits.isZero binary64 result) then return powSubnormal m rr
  return result

/-- l.583-613: `m_x` and `dx`, the argument of the polynomials, `1 + dx = RD[idx] * m_x` -/
def powDx (ce fused : Bool) (m : Mode) (idx mx : ℕ) : Option ℕ := do
  let r ← powRD[idx]?
  if ce || !fused then
    let c := mx &&& 0x3fffe00000000000
    let cd ← powCD[idx]?
    return multiplyAdd binary64 fused m r (binary64.hsub m mx c) cd
  else return binary64.hfma m r mx (binary64.hneg one64)

/-- l.595, l.615-627: the base-2 logarithm of the fast path, as a pair -/
def powFastLog (fused : Bool) (m : Mode) (idx dx : ℕ) (ex : ℕ) : Option Pair := do
  let c := fun i => powLogC.getD i 0
  let ma := multiplyAdd binary64 fused m
  let dxc0 := exactMult m (c 0) dx
  let dx2 := binary64.hmul m dx dx
  let c0 := ma dx (c 2) (c 1)
  let c1 := ma dx (c 4) (c 3)
  let c2 := ma dx (c 6) (c 5)
  let p := ma dx2 (ma dx2 c2 c1) c0
  let lrHi ← powLogHi[idx]?
  let lrMid ← powLogMid[idx]?
  let lrLo ← powLogLo[idx]?
  let hiPart := binary64.hadd m ex lrHi
  let h := exactAdd binary64 m hiPart dxc0.hi
  let lo := ma dx2 p (binary64.hadd m dxc0.lo lrMid)
  let l := exactAdd binary64 m h.hi lo
  return { l with lo := binary64.hadd m l.lo (binary64.hadd m h.lo lrLo) }

/-- l.694-720: the exponential of the fast path, `±2^(y6log/64)`, used only when the exponent was clamped -/
def powFastExp (ce fused : Bool) (m : Mode) (y6log : Pair) (sign : Bool) : Option ℕ := do
  let c := fun i => powExpC.getD i 0
  let ma := multiplyAdd binary64 fused m
  let hm := nearestInteger binary64 ce m y6log.hi
  let lo6 := binary64.hadd m (binary64.hsub m y6log.hi hm) y6log.lo
  let hmI ← castInt32 hm
  let ehm ← powExpHm sign hmI
  let sq := binary64.hmul m lo6 lo6
  let d0 := ma lo6 (c 2) (c 1)
  let d1 := ma lo6 (c 4) (c 3)
  let pp := ma sq (ma sq (c 5) d1) d0
  return binary64.hadd m (ma (binary64.hmul m ehm.hi lo6) pp ehm.lo) ehm.hi

/-- l.566-751 `pow_kernel` -/
def powKernel (ce fused : Bool) (m : Mode) (base exp : ℕ) (sign : Bool) : Option (ℕ × PowEff) := do
  let sub := FPBits.isSubnormal binary64 base
  let base := if sub then binary64.hmul m base 0x4330000000000000 else base -- 0x1.0p52
  let ex : ℤ := (FPBits.biasedExp binary64 base : ℤ) - binary64.bias + (if sub then -52 else 0)
  let mant := base &&& FPBits.fracMask binary64
  let idx := mant >>> 45
  let mx := mant ||| one64
  let dx ← powDx ce fused m idx mx
  let exD := binary64.ofInt m ex
  let log2x ← powFastLog fused m idx dx exD
  let y6 := binary64.hmul m exp 0x4050000000000000 -- 0x1.0p6
  let y6l0 := exactMult m y6 log2x.hi
  let y6l : Pair := { y6l0 with lo := multiplyAdd binary64 fused m y6 log2x.lo y6l0.lo }
  let big := binary64.hge (FPBits.abs binary64 y6l.hi) pow32768
  let pos := !FPBits.isNeg binary64 y6l.hi
  let scale := if big then (if pos then powScaleUp else powScaleDown) else one64
  let hi := if big then (if pos then binary64.hsub m y6l.hi pow32768 else binary64.hadd m y6l.hi pow32768) else y6l.hi
  let clamped := big && (if pos then binary64.hgt hi 0x40E0080000000000 else binary64.hlt hi 0xC0E1A00000000000) -- 513 * 64, -564 * 64
  if !clamped then
    let dd ← powDoubleDouble ce fused m idx dx exD y6 sign scale
    let eff : PowEff :=
      if scale ≠ one64 then
        if FPBits.isInf binary64 dd then { errno := some .erange, overflow := true }
        else if FPBits.isZero binary64 dd || decide (FPBits.abs binary64 dd < 0x0010000000000000) then { errno := some .erange, underflow := true }
        else {}
      else {}
    return (dd, eff)
  else
    let r ← powFastExp ce fused m { hi := if pos then 0x40E0080000000000 else 0xC0E1A00000000000, lo := 0 } sign
    let final := binary64.hmul m r scale
    if sign then return (final, {})
    else if FPBits.isNeg binary64 final then
      if FPBits.isInf binary64 final then return (binary64.inf false, { errno := some .erange, overflow := true })
      else return (binary64.zero false, { errno := some .erange, underflow := true })
    else if decide (scale = powScaleDown) && FPBits.isFinite binary64 final && !FPBits.isZero binary64 final &&
        decide (FPBits.abs binary64 final < 1) then
      return (binary64.zero false, { errno := some .erange, underflow := true })
    else return (final, {})

/-- `pow` for double: `pow_impl` (l.753-921) with its kernel; `none` as above -/
def powD (ce fused : Bool) (m : Mode) (base exp : ℕ) : Option (ℕ × PowEff) := powImpl (powKernel ce fused m) m base exp

end CC
end Verif
