import Verif.Lemmas.LogPoly

/-!
# The polynomials of the float logarithms against `log (1 + r)`

As in `LogPoly`, with `2^-24` the unit of the bounds.
-/

namespace Verif
open Real

/-- Taylor polynomial of `log (1 + r) / r` -/
noncomputable def logTf (r : ℝ) : ℝ := (1 / 1) + r * ((-1 / 2) + r * ((1 / 3) + r * ((-1 / 4) + r * ((1 / 5) + r * ((-1 / 6) + r * ((1 / 7)))))))

theorem logTf_near {r : ℝ} (h : |r| ≤ 1 / 32) : |r * logTf r - log (1 + r)| ≤ |r| * (11 / 10 / 32 ^ 7) := by
  have k := Real.abs_log_sub_add_sum_range_le (x := -r) (by rw [abs_neg]; exact lt_of_le_of_lt h (by norm_num)) 7
  rw [abs_neg, sub_neg_eq_add] at k
  have e : r * logTf r - log (1 + r) = -((∑ i ∈ Finset.range 7, (-r) ^ (i + 1) / (i + 1)) + log (1 + r)) := by
    unfold logTf
    simp only [Finset.sum_range_succ, Finset.sum_range_zero]
    push_cast
    ring
  rw [e, abs_neg]
  refine k.trans ?_
  have := @logTail |r| (1 / (32 : ℕ)) (abs_nonneg r) 32 rfl (by exact_mod_cast h) (by norm_num) 7
  exact_mod_cast this

/-- the polynomial of the float `log`, divided by `r` -/
noncomputable def logPF (r : ℝ) : ℝ := (1) + r * ((-9007194725564707 / 2 ^ 54) + r * ((3003511531898293 / 2 ^ 53) + r * ((-1129923522470093 / 2 ^ 52))))

/-- difference between `logPF r` and the Taylor polynomial of `log (1 + r) / r`, scaled to integer coefficients on `[-1/40, 1/40]` -/
def logPFaDiff : List ℤ := [
  7984353020666437435392,
  1623446386668060819456,
  -35496241320086559360,
  238719285227268595,
  -512990893834240,
  84825604096,
  -12582912]

/-- common denominator of `logPFaDiff` -/
def logPFaDen : ℕ := 328125 * (2 ^ 82)

theorem logPFa_check : pcheck logPFaDiff (logPFaDen * 22282 / 2 ^ 40) 128 = true := by decide +kernel

theorem logPFa_diff_eq (r : ℝ) : pev logPFaDiff (5120 / 1 * (r + 1 / 40)) = logPFaDen * ((logPF r - logTf r)) := by
  unfold logPFaDiff logPFaDen logPF logTf
  simp only [pev]
  push_cast
  ring

theorem logPFa_near {r : ℝ} (h1 : -(1 / 40) ≤ r) (h2 : r ≤ 1 / 40) : |(logPF r - logTf r)| ≤ 22282 / 2 ^ 40 := by
  have k := pcheck_sound logPFa_check (y := (5120 / 1 * (r + 1 / 40))) (by norm_num at h1 ⊢; linarith) (by norm_num at h2 ⊢; linarith) (by norm_num)
  rw [logPFa_diff_eq, abs_mul] at k
  have hD : (0 : ℝ) < logPFaDen := by unfold logPFaDen; positivity
  have h3 : ((logPFaDen * 22282 / 2 ^ 40 : ℕ) : ℝ) ≤ logPFaDen * (22282 / 2 ^ 40) := by
    have := @Nat.cast_div_le ℝ _ _ _ (logPFaDen * 22282) (2 ^ 40)
    refine le_trans this (le_of_eq ?_)
    push_cast; ring
  rw [abs_of_pos hD] at k
  exact le_of_mul_le_mul_left (le_trans k h3) hD

/-- difference between `logPF r` and the Taylor polynomial of `log (1 + r) / r`, times `r`, scaled to integer coefficients on `[-1/35, 1/40]` -/
def logPFbDiff : List ℤ := [
  67633110172111793884938673061888,
  -7049717732382335256933307514880,
  157816216620160770130654003200,
  -1459869766001768368517760000,
  6124641850840596608503125,
  -9924116360881766400000,
  1755089731584000000,
  -268738560000000]

/-- common denominator of `logPFbDiff` -/
def logPFbDen : ℕ := 1351125234375 * (2 ^ 96)

theorem logPFb_check : pcheck logPFbDiff (logPFbDen * 721 / 2 ^ 40) 128 = true := by decide +kernel

theorem logPFb_diff_eq (r : ℝ) : pev logPFbDiff (14336 / 3 * (r + 1 / 35)) = logPFbDen * (r * (logPF r - logTf r)) := by
  unfold logPFbDiff logPFbDen logPF logTf
  simp only [pev]
  push_cast
  ring

theorem logPFb_near {r : ℝ} (h1 : -(1 / 35) ≤ r) (h2 : r ≤ 1 / 40) : |r * (logPF r - logTf r)| ≤ 721 / 2 ^ 40 := by
  have k := pcheck_sound logPFb_check (y := (14336 / 3 * (r + 1 / 35))) (by norm_num at h1 ⊢; linarith) (by norm_num at h2 ⊢; linarith) (by norm_num)
  rw [logPFb_diff_eq, abs_mul] at k
  have hD : (0 : ℝ) < logPFbDen := by unfold logPFbDen; positivity
  have h3 : ((logPFbDen * 721 / 2 ^ 40 : ℕ) : ℝ) ≤ logPFbDen * (721 / 2 ^ 40) := by
    have := @Nat.cast_div_le ℝ _ _ _ (logPFbDen * 721) (2 ^ 40)
    refine le_trans this (le_of_eq ?_)
    push_cast; ring
  rw [abs_of_pos hD] at k
  exact le_of_mul_le_mul_left (le_trans k h3) hD

/-- difference between `logPF r` and the Taylor polynomial of `log (1 + r) / r`, times `r`, scaled to integer coefficients on `[-1/32, 1/32]` -/
def logPFcDiff : List ℤ := [
  232461974183775555289088,
  -17204740152842004725760,
  372509026628936171520,
  -3533905252654640640,
  15581599296162795,
  -27035745386496,
  5578424320,
  -983040]

/-- common denominator of `logPFcDiff` -/
def logPFcDen : ℕ := 105 * (2 ^ 100)

theorem logPFc_check : pcheck logPFcDiff (logPFcDen * 2949 / 2 ^ 40) 128 = true := by decide +kernel

theorem logPFc_diff_eq (r : ℝ) : pev logPFcDiff (4096 / 1 * (r + 1 / 32)) = logPFcDen * (r * (logPF r - logTf r)) := by
  unfold logPFcDiff logPFcDen logPF logTf
  simp only [pev]
  push_cast
  ring

theorem logPFc_near {r : ℝ} (h1 : -(1 / 32) ≤ r) (h2 : r ≤ 1 / 32) : |r * (logPF r - logTf r)| ≤ 2949 / 2 ^ 40 := by
  have k := pcheck_sound logPFc_check (y := (4096 / 1 * (r + 1 / 32))) (by norm_num at h1 ⊢; linarith) (by norm_num at h2 ⊢; linarith) (by norm_num)
  rw [logPFc_diff_eq, abs_mul] at k
  have hD : (0 : ℝ) < logPFcDen := by unfold logPFcDen; positivity
  have h3 : ((logPFcDen * 2949 / 2 ^ 40 : ℕ) : ℝ) ≤ logPFcDen * (2949 / 2 ^ 40) := by
    have := @Nat.cast_div_le ℝ _ _ _ (logPFcDen * 2949) (2 ^ 40)
    refine le_trans this (le_of_eq ?_)
    push_cast; ring
  rw [abs_of_pos hD] at k
  exact le_of_mul_le_mul_left (le_trans k h3) hD

/-- the polynomial of the float `log2`, divided by `r` -/
noncomputable def log2PF (r : ℝ) : ℝ := (812165093570839 / 2 ^ 49) + r * ((-3248660917613039 / 2 ^ 52) + r * ((270849131889047 / 2 ^ 49) + r * ((-6494501502352973 / 2 ^ 54))))

/-- difference between `ln2N / 2 ^ 160 * log2PF r` and the Taylor polynomial of `log (1 + r) / r`, scaled to integer coefficients on `[-1/40, 1/40]` -/
def log2PFaDiff : List ℤ := [
  7164937547530577404951253871354424623270414544210601230166670119534592,
  2317307795326983058699684978516539543555906725221109161429269273133056,
  -55564369431363650915062611767986389600594304660619250824255707359360,
  366199308012667225886502185446329632617054309624207677013095501595,
  -749737031274585150432546688707923676739265334286784282220298240,
  123972759273886945085756841108351411718021520028164681629696,
  -18389946490390666300300164325803710203424869466203226112]

/-- common denominator of `log2PFaDiff` -/
def log2PFaDen : ℕ := 328125 * (2 ^ 200 * 2 ^ 42)

theorem log2PFa_check : pcheck log2PFaDiff (log2PFaDen * 18022 / 2 ^ 40) 128 = true := by decide +kernel

theorem log2PFa_diff_eq (r : ℝ) : pev log2PFaDiff (5120 / 1 * (r + 1 / 40)) = log2PFaDen * ((ln2N / 2 ^ 160 * log2PF r - logTf r)) := by
  unfold log2PFaDiff log2PFaDen log2PF logTf ln2N
  simp only [pev]
  push_cast
  ring

theorem log2PFa_near {r : ℝ} (h1 : -(1 / 40) ≤ r) (h2 : r ≤ 1 / 40) : |(ln2N / 2 ^ 160 * log2PF r - logTf r)| ≤ 18022 / 2 ^ 40 := by
  have k := pcheck_sound log2PFa_check (y := (5120 / 1 * (r + 1 / 40))) (by norm_num at h1 ⊢; linarith) (by norm_num at h2 ⊢; linarith) (by norm_num)
  rw [log2PFa_diff_eq, abs_mul] at k
  have hD : (0 : ℝ) < log2PFaDen := by unfold log2PFaDen; positivity
  have h3 : ((log2PFaDen * 18022 / 2 ^ 40 : ℕ) : ℝ) ≤ log2PFaDen * (18022 / 2 ^ 40) := by
    have := @Nat.cast_div_le ℝ _ _ _ (log2PFaDen * 18022) (2 ^ 40)
    refine le_trans this (le_of_eq ?_)
    push_cast; ring
  rw [abs_of_pos hD] at k
  exact le_of_mul_le_mul_left (le_trans k h3) hD

/-- difference between `ln2N / 2 ^ 160 * log2PF r` and the Taylor polynomial of `log (1 + r) / r`, times `r`, scaled to integer coefficients on `[-1/35, 1/40]` -/
def log2PFbDiff : List ℤ := [
  108156757709629098008535523352550529910647240792587753848488550770044040210546688,
  -10571336421156736268758341840054710981367748596925944603720737878573210014842880,
  242372002999056461167256684675210660731918545459390684364857201329604604723200,
  -2249779729307121354031636845963372376996751946270104701062755248663157760000,
  9251763263185708714039083323345115304419858321073226897818451398127878125,
  -14504112310491103421460306335577485195436480820427665564422792806400000,
  2565066516372670916898467520491753106594107642884958384553984000000,
  -392761845453949093737856048638014787254787007056508354560000000]

/-- common denominator of `log2PFbDiff` -/
def log2PFbDen : ℕ := 1351125234375 * (2 ^ 200 * 2 ^ 56)

theorem log2PFb_check : pcheck log2PFbDiff (log2PFbDen * 773 / 2 ^ 40) 128 = true := by decide +kernel

theorem log2PFb_diff_eq (r : ℝ) : pev log2PFbDiff (14336 / 3 * (r + 1 / 35)) = log2PFbDen * (r * (ln2N / 2 ^ 160 * log2PF r - logTf r)) := by
  unfold log2PFbDiff log2PFbDen log2PF logTf ln2N
  simp only [pev]
  push_cast
  ring

theorem log2PFb_near {r : ℝ} (h1 : -(1 / 35) ≤ r) (h2 : r ≤ 1 / 40) : |r * (ln2N / 2 ^ 160 * log2PF r - logTf r)| ≤ 773 / 2 ^ 40 := by
  have k := pcheck_sound log2PFb_check (y := (14336 / 3 * (r + 1 / 35))) (by norm_num at h1 ⊢; linarith) (by norm_num at h2 ⊢; linarith) (by norm_num)
  rw [log2PFb_diff_eq, abs_mul] at k
  have hD : (0 : ℝ) < log2PFbDen := by unfold log2PFbDen; positivity
  have h3 : ((log2PFbDen * 773 / 2 ^ 40 : ℕ) : ℝ) ≤ log2PFbDen * (773 / 2 ^ 40) := by
    have := @Nat.cast_div_le ℝ _ _ _ (log2PFbDen * 773) (2 ^ 40)
    refine le_trans this (le_of_eq ?_)
    push_cast; ring
  rw [abs_of_pos hD] at k
  exact le_of_mul_le_mul_left (le_trans k h3) hD

/-- difference between `ln2N / 2 ^ 160 * log2PF r` and the Taylor polynomial of `log (1 + r) / r`, times `r`, scaled to integer coefficients on `[-1/32, 1/32]` -/
def log2PFcDiff : List ℤ := [
  358289980691551915685599550380914844816286711255843079057150420627488768,
  -26055622010555103383353785176770616664410911595538424927626455773347840,
  572313674652974158188009409316585797972266271289452328537485922304000,
  -5424587166090089498838327904008328763776270610390276964506003351040,
  23464960155198023354060613575162984801266058826330579379076292435,
  -39512786148825308738155335471736458172760301934039981250052096,
  8152876277406528726466406184439644856851692130016763576320,
  -1436714569561770804710950337953414859642567927047127040]

/-- common denominator of `log2PFcDiff` -/
def log2PFcDen : ℕ := 105 * (2 ^ 200 * 2 ^ 60)

theorem log2PFc_check : pcheck log2PFcDiff (log2PFcDen * 2064 / 2 ^ 40) 128 = true := by decide +kernel

theorem log2PFc_diff_eq (r : ℝ) : pev log2PFcDiff (4096 / 1 * (r + 1 / 32)) = log2PFcDen * (r * (ln2N / 2 ^ 160 * log2PF r - logTf r)) := by
  unfold log2PFcDiff log2PFcDen log2PF logTf ln2N
  simp only [pev]
  push_cast
  ring

theorem log2PFc_near {r : ℝ} (h1 : -(1 / 32) ≤ r) (h2 : r ≤ 1 / 32) : |r * (ln2N / 2 ^ 160 * log2PF r - logTf r)| ≤ 2064 / 2 ^ 40 := by
  have k := pcheck_sound log2PFc_check (y := (4096 / 1 * (r + 1 / 32))) (by norm_num at h1 ⊢; linarith) (by norm_num at h2 ⊢; linarith) (by norm_num)
  rw [log2PFc_diff_eq, abs_mul] at k
  have hD : (0 : ℝ) < log2PFcDen := by unfold log2PFcDen; positivity
  have h3 : ((log2PFcDen * 2064 / 2 ^ 40 : ℕ) : ℝ) ≤ log2PFcDen * (2064 / 2 ^ 40) := by
    have := @Nat.cast_div_le ℝ _ _ _ (log2PFcDen * 2064) (2 ^ 40)
    refine le_trans this (le_of_eq ?_)
    push_cast; ring
  rw [abs_of_pos hD] at k
  exact le_of_mul_le_mul_left (le_trans k h3) hD

end Verif
