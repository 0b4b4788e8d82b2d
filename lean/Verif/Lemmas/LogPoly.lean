import Verif.Lemmas.PolyBound
import Verif.Lemmas.LogTab
import Mathlib.Analysis.SpecialFunctions.Log.Deriv

/-!
# The polynomials of the double logarithms against `log (1 + r)`

The difference between each polynomial (exact coefficients) and a Taylor polynomial is bounded by kernel evaluation on a partition of the interval.
-/

namespace Verif
open Real

theorem logTail {a h : ℝ} (ha : 0 ≤ a) {N : ℕ} (hN : h = 1 / N) (h1 : a ≤ h) (hN2 : 16 ≤ N) (n : ℕ) : a ^ (n + 1) / (1 - a) ≤ a * (11 / 10 / N ^ n) := by
  have hN0 : (16 : ℝ) ≤ N := by exact_mod_cast hN2
  have hh : h ≤ 1 / 16 := by rw [hN]; exact one_div_le_one_div_of_le (by norm_num) hN0
  have hp : a ^ n ≤ 1 / N ^ n := by
    rw [← one_div_pow, ← hN]; exact pow_le_pow_left₀ ha h1 n
  rw [div_le_iff₀ (by linarith), pow_succ, mul_comm (a ^ n) a, mul_assoc]
  refine mul_le_mul_of_nonneg_left (hp.trans ?_) ha
  have e : (11 / 10 / N ^ n : ℝ) * (1 - a) = 1 / N ^ n * (11 / 10 * (1 - a)) := by ring
  rw [e]
  refine le_mul_of_one_le_right (by positivity) ?_
  linarith

/-- the polynomial of the table branch of `log`, divided by `r` -/
noncomputable def logPA (r : ℝ) : ℝ := (1) + r * ((-4503599627370497 / 2 ^ 53) + r * ((6004799502889051 / 2 ^ 54) + r * ((-562949953336409 / 2 ^ 51) + r * ((7205869115736337 / 2 ^ 55) + r * ((-6004939352885407 / 2 ^ 55))))))

/-- difference between `logPA r` and the Taylor polynomial of `log (1 + r) / r`, times `r`, scaled to integer coefficients -/
def logPADiff : List ℤ := [
  2109132240611763501924352,
  -3218473095118253457408000,
  1228373887031365557288960,
  -196819510482223048949760,
  16068567540046671175680,
  -704603684975745494016,
  15805057480795487520,
  -143200153917849600,
  30710815027200,
  -6690745600,
  1474704,
  -315]

/-- common denominator of `logPADiff` -/
def logPADen : ℕ := 3465 * (2 ^ 132)

theorem logPA_check : pcheck logPADiff (logPADen * 2 / 2 ^ 63) 16 = true := by decide +kernel

/-- Taylor polynomial of `log (1 + r) / r` -/
noncomputable def logPAT (r : ℝ) : ℝ := (1 / 1) + r * ((-1 / 2) + r * ((1 / 3) + r * ((-1 / 4) + r * ((1 / 5) + r * ((-1 / 6) + r * ((1 / 7) + r * ((-1 / 8) + r * ((1 / 9) + r * ((-1 / 10) + r * ((1 / 11)))))))))))

theorem logPA_diff_eq (r : ℝ) : pev logPADiff (16 * (r * 256 + 1)) = logPADen * (r * (logPA r - logPAT r)) := by
  unfold logPADiff logPADen logPA logPAT
  simp only [pev]
  push_cast
  ring

theorem logPA_near {r : ℝ} (h : |r| ≤ 1 / 256) : |r * (logPA r - logPAT r)| ≤ 2 / 2 ^ 63 := by
  have h1 := (abs_le.1 h).1
  have h2 := (abs_le.1 h).2
  have k := pcheck_sound logPA_check (y := 16 * (r * 256 + 1)) (by linarith) (by push_cast; linarith) (by norm_num)
  rw [logPA_diff_eq, abs_mul] at k
  have hD : (0 : ℝ) < logPADen := by unfold logPADen; positivity
  have h3 : ((logPADen * 2 / 2 ^ 63 : ℕ) : ℝ) ≤ logPADen * (2 / 2 ^ 63) := by
    have := @Nat.cast_div_le ℝ _ _ _ (logPADen * 2) (2 ^ 63)
    refine le_trans this (le_of_eq ?_)
    push_cast; ring
  rw [abs_of_pos hD] at k
  exact le_of_mul_le_mul_left (le_trans k h3) hD

theorem logPAT_near {r : ℝ} (h : |r| ≤ 1 / 256) : |r * logPAT r - log (1 + r)| ≤ |r| * (11 / 10 / 256 ^ 11) := by
  have k := Real.abs_log_sub_add_sum_range_le (x := -r) (by rw [abs_neg]; exact lt_of_le_of_lt h (by norm_num)) 11
  rw [abs_neg, sub_neg_eq_add] at k
  have e : r * logPAT r - log (1 + r) = -((∑ i ∈ Finset.range 11, (-r) ^ (i + 1) / (i + 1)) + log (1 + r)) := by
    unfold logPAT
    simp only [Finset.sum_range_succ, Finset.sum_range_zero]
    push_cast
    ring
  rw [e, abs_neg]
  refine k.trans ?_
  have := @logTail |r| (1 / (256 : ℕ)) (abs_nonneg r) 256 rfl (by exact_mod_cast h) (by norm_num) 11
  exact_mod_cast this

/-- the polynomial of the branch of `log` near 1, divided by `r` -/
noncomputable def logPP (r : ℝ) : ℝ := (1) + r * ((-1 / 2 ^ 1) + r * ((6004799503160695 / 2 ^ 54) + r * ((-9007199254740427 / 2 ^ 55) + r * ((1801439850886979 / 2 ^ 53) + r * ((-6004799504336295 / 2 ^ 55) + r * ((321685705477603 / 2 ^ 51) + r * ((-9007197715578213 / 2 ^ 56) + r * ((4003055885708133 / 2 ^ 55) + r * ((-7206110149765375 / 2 ^ 56) + r * ((6616323965571205 / 2 ^ 56) + r * ((-6001218045429197 / 2 ^ 56))))))))))))

/-- difference between `logPP r` and the Taylor polynomial of `log (1 + r) / r`, scaled to integer coefficients -/
def logPPDiff : List ℤ := [
  -6856441637485604501652777272868864,
  29678465765210354855142964705886208,
  -21298927840579435815841403844427776,
  6006622996520099539696787801505792,
  -879488870420111752106824427372544,
  76453637509752301491010387574784,
  -4244172238602466327887681159168,
  156456384564990029739753209856,
  -3891491503655702823409385472,
  65036741839264817019986944,
  -711148929718345192952992,
  4801563846669405129919,
  -18058346639663300608,
  34827249978966016,
  -66624395149312,
  121116835840,
  -184824640,
  170170]

/-- common denominator of `logPPDiff` -/
def logPPDen : ℕ := 765765 * (2 ^ 155)

theorem logPP_check : pcheck logPPDiff (logPPDen * 2 / 2 ^ 61) 32 = true := by decide +kernel

/-- Taylor polynomial of `log (1 + r) / r` -/
noncomputable def logPPT (r : ℝ) : ℝ := (1 / 1) + r * ((-1 / 2) + r * ((1 / 3) + r * ((-1 / 4) + r * ((1 / 5) + r * ((-1 / 6) + r * ((1 / 7) + r * ((-1 / 8) + r * ((1 / 9) + r * ((-1 / 10) + r * ((1 / 11) + r * ((-1 / 12) + r * ((1 / 13) + r * ((-1 / 14) + r * ((1 / 15) + r * ((-1 / 16) + r * ((1 / 17) + r * ((-1 / 18))))))))))))))))))

theorem logPP_diff_eq (r : ℝ) : pev logPPDiff (32 * (r * 16 + 1)) = logPPDen * ((logPP r - logPPT r)) := by
  unfold logPPDiff logPPDen logPP logPPT
  simp only [pev]
  push_cast
  ring

theorem logPP_near {r : ℝ} (h : |r| ≤ 1 / 16) : |(logPP r - logPPT r)| ≤ 2 / 2 ^ 61 := by
  have h1 := (abs_le.1 h).1
  have h2 := (abs_le.1 h).2
  have k := pcheck_sound logPP_check (y := 32 * (r * 16 + 1)) (by linarith) (by push_cast; linarith) (by norm_num)
  rw [logPP_diff_eq, abs_mul] at k
  have hD : (0 : ℝ) < logPPDen := by unfold logPPDen; positivity
  have h3 : ((logPPDen * 2 / 2 ^ 61 : ℕ) : ℝ) ≤ logPPDen * (2 / 2 ^ 61) := by
    have := @Nat.cast_div_le ℝ _ _ _ (logPPDen * 2) (2 ^ 61)
    refine le_trans this (le_of_eq ?_)
    push_cast; ring
  rw [abs_of_pos hD] at k
  exact le_of_mul_le_mul_left (le_trans k h3) hD

theorem logPPT_near {r : ℝ} (h : |r| ≤ 1 / 16) : |r * logPPT r - log (1 + r)| ≤ |r| * (11 / 10 / 16 ^ 18) := by
  have k := Real.abs_log_sub_add_sum_range_le (x := -r) (by rw [abs_neg]; exact lt_of_le_of_lt h (by norm_num)) 18
  rw [abs_neg, sub_neg_eq_add] at k
  have e : r * logPPT r - log (1 + r) = -((∑ i ∈ Finset.range 18, (-r) ^ (i + 1) / (i + 1)) + log (1 + r)) := by
    unfold logPPT
    simp only [Finset.sum_range_succ, Finset.sum_range_zero]
    push_cast
    ring
  rw [e, abs_neg]
  refine k.trans ?_
  have := @logTail |r| (1 / (16 : ℕ)) (abs_nonneg r) 16 rfl (by exact_mod_cast h) (by norm_num) 18
  exact_mod_cast this

/-- the polynomial of the table branch of `log2`, divided by `r` -/
noncomputable def log2PA (r : ℝ) : ℝ := (109006955297540689852369 / 2 ^ 76) + r * ((-6497320848556857 / 2 ^ 53) + r * ((4331547232371295 / 2 ^ 53) + r * ((-6497320836280315 / 2 ^ 54) + r * ((649732082919817 / 2 ^ 51) + r * ((-2165955400213679 / 2 ^ 53) + r * ((3713132112116887 / 2 ^ 54)))))))

/-- difference between `(log 2) log2PA r` and the Taylor polynomial of `log (1 + r) / r`, times `r`, scaled to integer coefficients -/
def log2PADiff : List ℤ := [
  127948486773871563766016867563490895704997686575540073637202708129644544,
  -276467623227376010314762248688762115433484142135210615093815737424281600,
  150796487500922739688086298258348578007403265602146535278744127495208960,
  -34378191143941843691914618878188307239946080292248921621692198808125440,
  4007190620885109695994758167067668707852564733737584306416503964938240,
  -259903523267521332142208021915003117079276317003303886538551564016896,
  9499019941991183833331874812339447378082551691426869453652269272560,
  -183547291165826130179525858610419210477965802125881416894821620585,
  1482150689509572340732912225997098268063119675470002081507573760,
  -648358758800068168103563250425127787844608031227105991720960,
  287138701211573188539235303116377191134743101267060457472,
  -127983698381067168547096680800964904031270012788408320,
  52751074722412277203914249430853340240706315223040]

/-- common denominator of `log2PADiff` -/
def log2PADen : ℕ := 3465 * (2 ^ 200 * 2 ^ 89)

theorem log2PA_check : pcheck log2PADiff (log2PADen * 2 / 2 ^ 65) 16 = true := by decide +kernel

/-- Taylor polynomial of `log (1 + r) / r` -/
noncomputable def log2PAT (r : ℝ) : ℝ := (1 / 1) + r * ((-1 / 2) + r * ((1 / 3) + r * ((-1 / 4) + r * ((1 / 5) + r * ((-1 / 6) + r * ((1 / 7) + r * ((-1 / 8) + r * ((1 / 9) + r * ((-1 / 10) + r * ((1 / 11) + r * ((-1 / 12))))))))))))

theorem log2PA_diff_eq (r : ℝ) : pev log2PADiff (16 * (r * 128 + 1)) = log2PADen * (r * (ln2N / 2 ^ 160 * log2PA r - log2PAT r)) := by
  unfold log2PADiff log2PADen log2PA log2PAT ln2N
  simp only [pev]
  push_cast
  ring

theorem log2PA_near {r : ℝ} (h : |r| ≤ 1 / 128) : |r * (ln2N / 2 ^ 160 * log2PA r - log2PAT r)| ≤ 2 / 2 ^ 65 := by
  have h1 := (abs_le.1 h).1
  have h2 := (abs_le.1 h).2
  have k := pcheck_sound log2PA_check (y := 16 * (r * 128 + 1)) (by linarith) (by push_cast; linarith) (by norm_num)
  rw [log2PA_diff_eq, abs_mul] at k
  have hD : (0 : ℝ) < log2PADen := by unfold log2PADen; positivity
  have h3 : ((log2PADen * 2 / 2 ^ 65 : ℕ) : ℝ) ≤ log2PADen * (2 / 2 ^ 65) := by
    have := @Nat.cast_div_le ℝ _ _ _ (log2PADen * 2) (2 ^ 65)
    refine le_trans this (le_of_eq ?_)
    push_cast; ring
  rw [abs_of_pos hD] at k
  exact le_of_mul_le_mul_left (le_trans k h3) hD

theorem log2PAT_near {r : ℝ} (h : |r| ≤ 1 / 128) : |r * log2PAT r - log (1 + r)| ≤ |r| * (11 / 10 / 128 ^ 12) := by
  have k := Real.abs_log_sub_add_sum_range_le (x := -r) (by rw [abs_neg]; exact lt_of_le_of_lt h (by norm_num)) 12
  rw [abs_neg, sub_neg_eq_add] at k
  have e : r * log2PAT r - log (1 + r) = -((∑ i ∈ Finset.range 12, (-r) ^ (i + 1) / (i + 1)) + log (1 + r)) := by
    unfold log2PAT
    simp only [Finset.sum_range_succ, Finset.sum_range_zero]
    push_cast
    ring
  rw [e, abs_neg]
  refine k.trans ?_
  have := @logTail |r| (1 / (128 : ℕ)) (abs_nonneg r) 128 rfl (by exact_mod_cast h) (by norm_num) 12
  exact_mod_cast this

/-- the polynomial of the branch of `log2` near 1, divided by `r` -/
noncomputable def log2PP (r : ℝ) : ℝ := (109006955297540689852369 / 2 ^ 76) + r * ((-3248660424278399 / 2 ^ 52) + r * ((8663094464742391 / 2 ^ 54) + r * ((-6497320848555071 / 2 ^ 54) + r * ((1299464169723641 / 2 ^ 52) + r * ((-8663094485487589 / 2 ^ 55) + r * ((3712754672366491 / 2 ^ 54) + r * ((-6497287952181147 / 2 ^ 55) + r * ((2887767071133093 / 2 ^ 54) + r * ((-1304541182758415 / 2 ^ 53) + r * ((2350307374626611 / 2 ^ 54)))))))))))

/-- difference between `(log 2) log2PP r` and the Taylor polynomial of `log (1 + r) / r`, scaled to integer coefficients -/
def log2PPDiff : List ℤ := [
  -447147001548685894691027665183982367842392906453209844830388402793996247839404982272,
  407751177004817147343710211710014150454030977297495765105706635793085117553866440704,
  -137699159756106909593707151398876654577369172947233089948851284275469903011562651648,
  23485868979635219790816110520596671092711962955594941594027573758350279354326450176,
  -2327609296922543537909855420132491232665286399729158643997398917372179336839299072,
  144896289087883185182233254232983953997275073322397357211814453275076331485265920,
  -5913681299091156475306150538120846403032265641713033082569586480396040404992000,
  161091670288226277583028365274110580571398661770015539713643945977469112811520,
  -2915894515702636288069515382181755512753627715197120551382316258073983022080,
  34016213298092519375480021236612779241756068506677150990672259969175787200,
  -238189342853079521463430127195883213853066663118750330543904867240320793,
  859823045354797787182318276584011016010369474879398218790776629886976,
  -1176585485684610053425814072652316262196004506787840646375666614272,
  1585140416164001564921994573832235030413136558104676196453187584,
  -1931201840741885430859721456509950823302459242123865586925568,
  1568892309961453718744357769045129026729684176335462727680]

/-- common denominator of `log2PPDiff` -/
def log2PPDen : ℕ := 17105831253757090845 * (2 ^ 200 * 2 ^ 72)

theorem log2PP_check : pcheck log2PPDiff (log2PPDen * 5 / 2 ^ 60) 32 = true := by decide +kernel

/-- Taylor polynomial of `log (1 + r) / r` -/
noncomputable def log2PPT (r : ℝ) : ℝ := (1 / 1) + r * ((-1 / 2) + r * ((1 / 3) + r * ((-1 / 4) + r * ((1 / 5) + r * ((-1 / 6) + r * ((1 / 7) + r * ((-1 / 8) + r * ((1 / 9) + r * ((-1 / 10) + r * ((1 / 11) + r * ((-1 / 12) + r * ((1 / 13) + r * ((-1 / 14) + r * ((1 / 15) + r * ((-1 / 16))))))))))))))))

theorem log2PP_diff_eq (r : ℝ) : pev log2PPDiff (32 * (r * 22 + 1)) = log2PPDen * ((ln2N / 2 ^ 160 * log2PP r - log2PPT r)) := by
  unfold log2PPDiff log2PPDen log2PP log2PPT ln2N
  simp only [pev]
  push_cast
  ring

theorem log2PP_near {r : ℝ} (h : |r| ≤ 1 / 22) : |(ln2N / 2 ^ 160 * log2PP r - log2PPT r)| ≤ 5 / 2 ^ 60 := by
  have h1 := (abs_le.1 h).1
  have h2 := (abs_le.1 h).2
  have k := pcheck_sound log2PP_check (y := 32 * (r * 22 + 1)) (by linarith) (by push_cast; linarith) (by norm_num)
  rw [log2PP_diff_eq, abs_mul] at k
  have hD : (0 : ℝ) < log2PPDen := by unfold log2PPDen; positivity
  have h3 : ((log2PPDen * 5 / 2 ^ 60 : ℕ) : ℝ) ≤ log2PPDen * (5 / 2 ^ 60) := by
    have := @Nat.cast_div_le ℝ _ _ _ (log2PPDen * 5) (2 ^ 60)
    refine le_trans this (le_of_eq ?_)
    push_cast; ring
  rw [abs_of_pos hD] at k
  exact le_of_mul_le_mul_left (le_trans k h3) hD

theorem log2PPT_near {r : ℝ} (h : |r| ≤ 1 / 22) : |r * log2PPT r - log (1 + r)| ≤ |r| * (11 / 10 / 22 ^ 16) := by
  have k := Real.abs_log_sub_add_sum_range_le (x := -r) (by rw [abs_neg]; exact lt_of_le_of_lt h (by norm_num)) 16
  rw [abs_neg, sub_neg_eq_add] at k
  have e : r * log2PPT r - log (1 + r) = -((∑ i ∈ Finset.range 16, (-r) ^ (i + 1) / (i + 1)) + log (1 + r)) := by
    unfold log2PPT
    simp only [Finset.sum_range_succ, Finset.sum_range_zero]
    push_cast
    ring
  rw [e, abs_neg]
  refine k.trans ?_
  have := @logTail |r| (1 / (22 : ℕ)) (abs_nonneg r) 22 rfl (by exact_mod_cast h) (by norm_num) 16
  exact_mod_cast this

end Verif
