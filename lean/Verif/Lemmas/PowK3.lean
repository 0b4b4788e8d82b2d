import Verif.Lemmas.PowK2
import Verif.Lemmas.LogTab
import Verif.Lemmas.ExpTab

/-!
# The tables and polynomials of the pow kernel
-/

namespace Verif
open Fmt Real

/-- what is checked of row `i` of `RD`, `CD` and `LOG2_R_TD` -/
def powRowOk (i : ℕ) : Bool :=
  let r := CC.powRD.getD i 0
  let c := CC.powCD.getD i 0
  let h := CC.powLogHi.getD i 0
  let m := CC.powLogMid.getD i 0
  let l := CC.powLogLo.getD i 0
  let R := ints 160 r
  let T := ints 160 h + ints 160 m + ints 160 l
  intsOk 160 r && intsOk 160 c && intsOk 160 h && intsOk 160 m && intsOk 160 l && (R % 2 ^ 152 == 0) && decide (2 ^ 159 ≤ R) && decide (R ≤ 2 ^ 160) &&
    (ints 160 c * 128 == R * (128 + i) - 128 * 2 ^ 160) && decide (-(128 * 2 ^ 152) ≤ R * (128 + i) - 128 * 2 ^ 160) &&
    decide (R * (129 + i) - 128 * 2 ^ 160 ≤ 128 * 2 ^ 153) &&
    (ints 160 h % 2 ^ 140 == 0) && decide (0 ≤ ints 160 h) && decide (ints 160 h ≤ 2 ^ 160) && decide ((ints 160 m).natAbs ≤ 2 ^ 139) && decide ((ints 160 l).natAbs ≤ 2 ^ 90) &&
    decide (0 ≤ T) && decide (T ≤ 2 ^ 160) && logChk 104 (2 ^ 160) R.toNat (T.toNat * ln2N) (2 ^ 320)

theorem powRow_ok : ∀ i < 128, powRowOk i = true := by decide +kernel

/-- what is checked of row `i` of `R2` and `LOG2_R2_DD` -/
def powRow2Ok (i : ℕ) : Bool :=
  let r := CC.powR2.getD i 0
  let b := CC.powLog2Big.getD i 0
  let s := CC.powLog2Small.getD i 0
  let R := ints 160 r
  let T := ints 160 b + ints 160 s
  intsOk 160 r && intsOk 160 b && intsOk 160 s && (R % 2 ^ 144 == 0) && decide (2 ^ 159 ≤ R) && decide (R ≤ 2 ^ 161) &&
    decide ((R * (16320 + i) - 2 ^ 174).natAbs ≤ 2 ^ 158) && decide ((ints 160 b).natAbs ≤ 2 ^ 154) && decide ((ints 160 s).natAbs ≤ 2 ^ 101) &&
    (if i ≤ 64 then decide (T ≤ 0) && logChk 104 R.toNat (2 ^ 160) (T.natAbs * ln2N) (2 ^ 320) else decide (0 ≤ T) && logChk 104 (2 ^ 160) R.toNat (T.natAbs * ln2N) (2 ^ 320)) &&
    [Mode.nearest, .zero, .down, .up].all fun m => ((CC.split m r).hi == r) && (binary64.mag (CC.split m r).lo == 0) && decide ((CC.split m r).lo < 2 ^ 64)

theorem powRow2_ok : ∀ i < 193, powRow2Ok i = true := by decide +kernel

/-- what is checked of a coefficient pair -/
def coefOk (q : CC.Pair) (lo hi : ℕ) : Bool :=
  intsOk 240 q.hi && intsOk 240 q.lo && decide ((ints 240 q.hi).natAbs ≤ hi) && decide (lo ≤ (ints 240 q.hi).natAbs) && decide ((ints 240 q.lo).natAbs * 2 ^ 48 ≤ hi)

end Verif
