import Verif.Fmt
import Verif.Hw
import Verif.Lemmas.Ap
import Verif.Lemmas.ApF
import Verif.Lemmas.Asin1
import Verif.Lemmas.Asin10
import Verif.Lemmas.Asin11
import Verif.Lemmas.Asin2
import Verif.Lemmas.Asin3
import Verif.Lemmas.Asin4
import Verif.Lemmas.Asin5
import Verif.Lemmas.Asin6
import Verif.Lemmas.Asin7
import Verif.Lemmas.Asin8
import Verif.Lemmas.Asin9
import Verif.Lemmas.AsinF1
import Verif.Lemmas.AsinF2
import Verif.Lemmas.AsinF3
import Verif.Lemmas.AsinF4
import Verif.Lemmas.Basic
import Verif.Lemmas.BigDivHalf
import Verif.Lemmas.BigInt
import Verif.Lemmas.BigInt2
import Verif.Lemmas.BigInt3
import Verif.Lemmas.BigInt4
import Verif.Lemmas.BigInt5
import Verif.Lemmas.BigMask
import Verif.Lemmas.Bits
import Verif.Lemmas.Cbrt
import Verif.Lemmas.Cbrt2
import Verif.Lemmas.Cbrt3
import Verif.Lemmas.Cbrt4
import Verif.Lemmas.Dio
import Verif.Lemmas.Dyadic
import Verif.Lemmas.Dyadic2
import Verif.Lemmas.Dyadic3
import Verif.Lemmas.Dyadic4
import Verif.Lemmas.Dyadic5
import Verif.Lemmas.EFT
import Verif.Lemmas.EFTMul
import Verif.Lemmas.Exact
import Verif.Lemmas.Exp1
import Verif.Lemmas.Exp10
import Verif.Lemmas.Exp11
import Verif.Lemmas.Exp2
import Verif.Lemmas.Exp3
import Verif.Lemmas.Exp4
import Verif.Lemmas.Exp5
import Verif.Lemmas.Exp6
import Verif.Lemmas.Exp7
import Verif.Lemmas.Exp8
import Verif.Lemmas.Exp9
import Verif.Lemmas.ExpF1
import Verif.Lemmas.ExpF2
import Verif.Lemmas.ExpTab
import Verif.Lemmas.Expm1
import Verif.Lemmas.Expm1F
import Verif.Lemmas.Ext
import Verif.Lemmas.FErr
import Verif.Lemmas.FErr32
import Verif.Lemmas.Fma
import Verif.Lemmas.FpOps
import Verif.Lemmas.FpSupport
import Verif.Lemmas.Gamma
import Verif.Lemmas.Grid
import Verif.Lemmas.HwSpec
import Verif.Lemmas.IntLiterals
import Verif.Lemmas.IntTy
import Verif.Lemmas.IntUtil
import Verif.Lemmas.Ipow1
import Verif.Lemmas.Ipow2
import Verif.Lemmas.Ipow3
import Verif.Lemmas.Ipow4
import Verif.Lemmas.Ipow5
import Verif.Lemmas.Ipow6
import Verif.Lemmas.Ldexp
import Verif.Lemmas.Lgamma
import Verif.Lemmas.Ln2
import Verif.Lemmas.Log1
import Verif.Lemmas.Log1p1
import Verif.Lemmas.Log1p2
import Verif.Lemmas.Log1p3
import Verif.Lemmas.Log1p4
import Verif.Lemmas.Log1p5
import Verif.Lemmas.Log1pF1
import Verif.Lemmas.Log1pF2
import Verif.Lemmas.LogC
import Verif.Lemmas.LogD1
import Verif.Lemmas.LogD2
import Verif.Lemmas.LogD3
import Verif.Lemmas.LogD4
import Verif.Lemmas.LogE1
import Verif.Lemmas.LogE2
import Verif.Lemmas.LogE3
import Verif.Lemmas.LogE4
import Verif.Lemmas.LogF1
import Verif.Lemmas.LogF2
import Verif.Lemmas.LogF3
import Verif.Lemmas.LogG
import Verif.Lemmas.LogH
import Verif.Lemmas.LogPoly
import Verif.Lemmas.LogPolyF
import Verif.Lemmas.LogRed
import Verif.Lemmas.LogRedF
import Verif.Lemmas.LogTab
import Verif.Lemmas.LogTabF
import Verif.Lemmas.Manip
import Verif.Lemmas.Mono
import Verif.Lemmas.Nearest
import Verif.Lemmas.Numbers
import Verif.Lemmas.Odd
import Verif.Lemmas.PayneHanek
import Verif.Lemmas.PayneHanek2
import Verif.Lemmas.PiBits
import Verif.Lemmas.PolyBound
import Verif.Lemmas.PowF1
import Verif.Lemmas.PowF2
import Verif.Lemmas.PowF3
import Verif.Lemmas.PowF4
import Verif.Lemmas.PowF5
import Verif.Lemmas.PowF6
import Verif.Lemmas.PowF7
import Verif.Lemmas.PowK1
import Verif.Lemmas.PowK10
import Verif.Lemmas.PowK11
import Verif.Lemmas.PowK2
import Verif.Lemmas.PowK3
import Verif.Lemmas.PowK4
import Verif.Lemmas.PowK5
import Verif.Lemmas.PowK6
import Verif.Lemmas.PowK7
import Verif.Lemmas.PowK8
import Verif.Lemmas.PowK9
import Verif.Lemmas.RelErr
import Verif.Lemmas.Rem
import Verif.Lemmas.Round
import Verif.Lemmas.RoundBits
import Verif.Lemmas.RoundScale
import Verif.Lemmas.Rsqrt
import Verif.Lemmas.Rsqrt2
import Verif.Lemmas.Rsqrt3
import Verif.Lemmas.Scalbn
import Verif.Lemmas.SinCos
import Verif.Lemmas.SinCos2
import Verif.Lemmas.SinCos3
import Verif.Lemmas.SinCos4
import Verif.Lemmas.SinCos5
import Verif.Lemmas.SinCos6
import Verif.Lemmas.SinCosF
import Verif.Lemmas.SinCosF2
import Verif.Lemmas.SinCosF3
import Verif.Lemmas.SinCosF4
import Verif.Lemmas.SinPoly
import Verif.Lemmas.Sqrt
import Verif.Lemmas.Stirling
import Verif.Lemmas.Ulp
import Verif.Lemmas.Value
import Verif.Model.Angle
import Verif.Model.Basic
import Verif.Model.BigInt
import Verif.Model.BigIntBits
import Verif.Model.Cbrt
import Verif.Model.Dyadic
import Verif.Model.EFT
import Verif.Model.Exp
import Verif.Model.Ext
import Verif.Model.FPBits
import Verif.Model.FloorGen
import Verif.Model.Fma
import Verif.Model.FpSupport
import Verif.Model.Gamma
import Verif.Model.IntAbs
import Verif.Model.IntLiterals
import Verif.Model.IntUtil
import Verif.Model.InvTrig
import Verif.Model.InvTrigF
import Verif.Model.LerpSmooth
import Verif.Model.Lgamma
import Verif.Model.Log
import Verif.Model.Log1p
import Verif.Model.Manip
import Verif.Model.MinMixed
import Verif.Model.NanHypot
import Verif.Model.Nearest
import Verif.Model.NormFloat
import Verif.Model.Numbers
import Verif.Model.Pow
import Verif.Model.PowF
import Verif.Model.PowKernel
import Verif.Model.Rem
import Verif.Model.Sqrt
import Verif.Model.Trig
import Verif.Model.TrigF
import Verif.Props.Angle
import Verif.Props.AngleLerp
import Verif.Props.Atan2
import Verif.Props.BigInt
import Verif.Props.BigIntBits
import Verif.Props.Cbrt
import Verif.Props.CbrtExact
import Verif.Props.Compare
import Verif.Props.Cubic
import Verif.Props.DoubleDouble
import Verif.Props.Dyadic
import Verif.Props.DyadicRecip
import Verif.Props.EFT
import Verif.Props.Exp
import Verif.Props.Exp2
import Verif.Props.Exp2F
import Verif.Props.ExpF
import Verif.Props.Expm1
import Verif.Props.Expm1F
import Verif.Props.Ext
import Verif.Props.Ext2
import Verif.Props.Ext3
import Verif.Props.FloorGen
import Verif.Props.Fma
import Verif.Props.FpOps
import Verif.Props.FpSupport
import Verif.Props.Gamma
import Verif.Props.GammaF
import Verif.Props.IntAbs
import Verif.Props.IntLiterals
import Verif.Props.IntUtil
import Verif.Props.InvTrig
import Verif.Props.InvTrigF
import Verif.Props.LerpSmooth
import Verif.Props.Lgamma
import Verif.Props.Log
import Verif.Props.Log1p
import Verif.Props.Manip
import Verif.Props.MinMixed
import Verif.Props.NanHypot
import Verif.Props.Nearest
import Verif.Props.NormFloat
import Verif.Props.Numbers
import Verif.Props.Pow
import Verif.Props.PowF
import Verif.Props.PowHalf
import Verif.Props.PowInt
import Verif.Props.PowKernel
import Verif.Props.Rcp
import Verif.Props.Rem
import Verif.Props.Rsqrt
import Verif.Props.Sign
import Verif.Props.SinCos
import Verif.Props.SinCosF
import Verif.Props.Sqrt
import Verif.Props.Trig
