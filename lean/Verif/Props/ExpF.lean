import Verif.Lemmas.ExpF2

/-!
# Properties of the float `exp` (C65)

`0x42B17217` is 88.72283172607422, `0xC2CFF1B4` is -103.97207641601562.
-/

namespace Verif
open Fmt Real

theorem absTopf {x : ℕ} (hx : x < 2 ^ 32) : (x >>> 20) &&& 0x7ff = binary32.mag x / 2 ^ 20 := by
  have h1 : (x >>> 20) &&& 0x7ff = (x / 2 ^ 20) % 2 ^ 11 := by
    rw [Nat.shiftRight_eq_div_pow]; exact Nat.and_two_pow_sub_one_eq_mod _ 11
  have h2 : binary32.mag x = x % 2 ^ 31 := rfl
  rw [h1, h2]; omega

theorem magf_le_iff {x y : ℕ} (hy : binary32.mag y = y) (hy2 : 0 ≤ binary32.val y) : y ≤ binary32.mag x ↔ binary32.val y ≤ |binary32.val x| := by
  rw [← abs_of_nonneg hy2, binary32.abs_val, binary32.abs_val, hy, mul_le_mul_iff_left₀ binary32.minSub_pos, Nat.cast_le, umag_le_iff]

theorem absTopf_ge {x : ℕ} (hx : x < 2 ^ 32) : 0x42b ≤ (x >>> 20) &&& 0x7ff ↔ 88 ≤ |binary32.val x| := by
  have v : binary32.val 0x42B00000 = 88 := by
    rw [lit32 false 0xB00000 17 (by decide +kernel) (by decide +kernel) (by decide +kernel) (by decide +kernel)]; norm_num [sg]
  have h := magf_le_iff (x := x) (y := 0x42B00000) (by decide +kernel) (by rw [v]; norm_num)
  rw [v] at h
  rw [absTopf hx, ← h]
  omega

theorem val_fmax : binary32.val 0x42B17217 = 0xB17217 / 2 ^ 17 := by
  rw [lit32 false 0xB17217 17 (by decide +kernel) (by decide +kernel) (by decide +kernel) (by decide +kernel)]; norm_num [sg]
theorem val_fmin : binary32.val 0xC2CFF1B4 = -(0xCFF1B4 / 2 ^ 17) := by
  rw [lit32 true 0xCFF1B4 17 (by decide +kernel) (by decide +kernel) (by decide +kernel) (by decide +kernel)]; norm_num [sg]

theorem finite_absTop {x : ℕ} (hx : binary32.Finite x) : (x >>> 20) &&& 0x7ff < 0x7f8 := by
  rw [absTopf hx.valid]
  have h := ((binary32.finite_iff x).1 hx).2
  have : binary32.infMag = 0x7f8 * 2 ^ 20 := by decide +kernel
  omega

/-- a float of magnitude at least 64 and less than 128 is a multiple of `2^-17` -/
theorem mult17 {x : ℕ} (h : 64 ≤ |binary32.val x|) : ∃ a : ℤ, binary32.val x = a / 2 ^ 17 := by
  have h1 : Mult (-17) (binary32.val x) := (binary32.mult_ce x).weaken (binary32.le_ce_of (by
    have : (-17 : ℤ) + (binary32.F : ℤ) = 6 := by decide
    rw [this]; norm_num; linarith))
  obtain ⟨a, ha⟩ := h1
  refine ⟨a, ?_⟩
  rw [ha, zpow_neg, ← div_eq_mul_inv]; norm_cast

/-- floats above the threshold overflow -/
theorem fmax_next {x : ℕ} (h : binary32.val 0x42B17217 < binary32.val x) : 128 * log 2 < binary32.val x := by
  rw [val_fmax] at h
  have c : (64 : ℝ) ≤ 0xB17217 / 2 ^ 17 := by norm_num
  obtain ⟨a, ha⟩ := mult17 (x := x) (by rw [abs_of_pos (by linarith)]; linarith)
  rw [ha] at h ⊢
  have h2 : (0xB17217 : ℤ) < a := by
    have := (div_lt_div_iff_of_pos_right (show (0 : ℝ) < 2 ^ 17 by norm_num)).1 h
    exact_mod_cast this
  have h3 : (0xB17218 : ℝ) ≤ a := by exact_mod_cast h2
  obtain ⟨l1, l2⟩ := ln2_bounds
  have g2 : log 2 ≤ (69314718055994530942 : ℝ) / 10 ^ 20 := le_trans l2 (by norm_num)
  have h4 : (0xB17218 : ℝ) / 2 ^ 17 ≤ a / 2 ^ 17 := div_le_div_of_nonneg_right h3 (by norm_num)
  have h5 : 128 * ((69314718055994530942 : ℝ) / 10 ^ 20) < 0xB17218 / 2 ^ 17 := by norm_num
  linarith

/-- floats below the other threshold have an exponential below half the least subnormal -/
theorem fmin_next {x : ℕ} (h : binary32.val x < binary32.val 0xC2CFF1B4) : binary32.val x < -(150 * log 2) := by
  rw [val_fmin] at h
  have c : (64 : ℝ) ≤ 0xCFF1B4 / 2 ^ 17 := by norm_num
  obtain ⟨a, ha⟩ := mult17 (x := x) (by rw [abs_of_neg (by linarith)]; linarith)
  rw [ha] at h ⊢
  have h2 : a < -0xCFF1B4 := by
    rw [← neg_div] at h
    have := (div_lt_div_iff_of_pos_right (show (0 : ℝ) < 2 ^ 17 by norm_num)).1 h
    exact_mod_cast this
  have h3 : (a : ℝ) ≤ -0xCFF1B5 := by
    have : a ≤ -0xCFF1B5 := by omega
    exact_mod_cast this
  obtain ⟨l1, l2⟩ := ln2_bounds
  have g2 : log 2 ≤ (69314718055994530942 : ℝ) / 10 ^ 20 := le_trans l2 (by norm_num)
  have h4 : (a : ℝ) / 2 ^ 17 ≤ -0xCFF1B5 / 2 ^ 17 := div_le_div_of_nonneg_right h3 (by norm_num)
  have h5 : -0xCFF1B5 / 2 ^ 17 < -(150 * ((69314718055994530942 : ℝ) / 10 ^ 20)) := by norm_num
  linarith

theorem fmax_exp {X : ℝ} (h : X ≤ binary32.val 0x42B17217) : exp X ≤ 2 ^ 128 * (1 - 1 / 2 ^ 20) := by
  rw [val_fmax] at h
  obtain ⟨l1, l2⟩ := ln2_bounds
  have g1 : (69314718055994530941 : ℝ) / 10 ^ 20 ≤ log 2 := le_trans (by norm_num) l1
  have h1 : X ≤ ((128 : ℤ) : ℝ) * log 2 + -(1 / 2 ^ 18) := by
    have c : (0xB17217 : ℝ) / 2 ^ 17 ≤ 128 * (69314718055994530941 / 10 ^ 20) + -(1 / 2 ^ 18) := by norm_num
    push_cast; linarith
  refine le_trans (Real.exp_le_exp.2 h1) ?_
  rw [Real.exp_add, exp_int_log]
  have e : (2 : ℝ) ^ (128 : ℤ) = 2 ^ 128 := by norm_cast
  rw [e]
  refine mul_le_mul_of_nonneg_left ?_ (by positivity)
  have := (abs_le.1 (Real.abs_exp_sub_one_sub_id_le (x := -(1 / 2 ^ 18)) (by norm_num))).2
  norm_num at this ⊢
  linarith

theorem expFloat_low (md : Mode) {x : ℕ} (hx : binary32.Finite x) (h : binary32.val x < binary32.val 0xC2CFF1B4) :
    CC.expFloat md x = binary32.hmul md 0x1A200000 0x1A200000 := by
  have hT := finite_absTop hx
  have f1 : binary32.Finite 0x42B17217 := by decide +kernel
  have f2 : binary32.Finite 0xC2CFF1B4 := by decide +kernel
  have h88 := absTopf_ge hx.valid
  have hv := h
  rw [val_fmin] at hv
  have c : (88 : ℝ) ≤ 0xCFF1B4 / 2 ^ 17 := by norm_num
  have h3 := h88.2 (by rw [abs_of_neg (by linarith)]; linarith)
  unfold CC.expFloat
  simp only
  rw [if_neg (by rintro ⟨-, hc⟩; rw [hc] at hT; revert hT; decide +kernel), if_neg (by omega), if_neg (by
    rintro ⟨-, hc⟩
    unfold hgt at hc
    rw [CC.hlt_finite binary32 f1 hx, val_fmax] at hc
    have : (0 : ℝ) < 0xB17217 / 2 ^ 17 := by norm_num
    linarith), if_pos ⟨h3, by rw [CC.hlt_finite binary32 hx f2]; exact h⟩]

theorem expFloat_main (md : Mode) {x : ℕ} (hx : binary32.Finite x) (h1 : binary32.val 0xC2CFF1B4 ≤ binary32.val x) (h2 : binary32.val x ≤ binary32.val 0x42B17217) :
    CC.expFloat md x = binary32.hcvt binary64 md (binary64.hmul md (CC.expfParts md (binary64.hcvt binary32 md x)).1 (CC.expfParts md (binary64.hcvt binary32 md x)).2) := by
  have hT := finite_absTop hx
  have f1 : binary32.Finite 0x42B17217 := by decide +kernel
  have f2 : binary32.Finite 0xC2CFF1B4 := by decide +kernel
  unfold CC.expFloat
  simp only
  rw [if_neg (by rintro ⟨-, hc⟩; rw [hc] at hT; revert hT; decide +kernel), if_neg (by omega), if_neg (by
    rintro ⟨-, hc⟩
    unfold hgt at hc
    rw [CC.hlt_finite binary32 f1 hx] at hc
    linarith), if_neg (by
    rintro ⟨-, hc⟩
    rw [CC.hlt_finite binary32 hx f2] at hc
    linarith)]

theorem ruf_K (md : Mode) : ruf md * expfK md = if md = .nearest then 1.02 / 2 ^ 24 else 1.1 / 2 ^ 23 := by
  unfold ruf expfK; split_ifs <;> norm_num

theorem abs104 {X : ℝ} (h1 : binary32.val 0xC2CFF1B4 ≤ X) (h2 : X ≤ binary32.val 0x42B17217) : |X| ≤ 104 := by
  rw [val_fmin] at h1
  rw [val_fmax] at h2
  have c1 : (0xCFF1B4 : ℝ) / 2 ^ 17 ≤ 104 := by norm_num
  have c2 : (0xB17217 : ℝ) / 2 ^ 17 ≤ 104 := by norm_num
  rw [abs_le]; constructor <;> linarith

/-- **C65.** For every finite float `x` between -103.97207641601562 and 88.72283172607422, `exp(x)` is finite, not negative and within a relative error
of `1.02 · 2^-24` (round to nearest; `1.1 · 2^-23` in the directed modes) of `e^x`, plus half (once) the least subnormal.
Missing: the same bound for smaller `x`, which does not hold in round-to-nearest (`C65_expf_underflow_wrong`). -/
theorem C65_expf_accuracy_partial (md : Mode) {x : ℕ} (hx : binary32.Finite x) (h1 : binary32.val 0xC2CFF1B4 ≤ binary32.val x) (h2 : binary32.val x ≤ binary32.val 0x42B17217) :
    binary32.Finite (CC.expFloat md x) ∧ 0 ≤ binary32.val (CC.expFloat md x) ∧
      |binary32.val (CC.expFloat md x) - Real.exp (binary32.val x)| ≤
        (if md = .nearest then 1.02 / 2 ^ 24 else 1.1 / 2 ^ 23) * Real.exp (binary32.val x) + (if md = .nearest then 1 / 2 else 1) * (2 : ℝ) ^ (-149 : ℤ) := by
  obtain ⟨a, b⟩ := expfD md hx (abs104 h1 h2)
  rw [expFloat_main md hx h1 h2]
  obtain ⟨c1, c2, c3⟩ := expf_final (CC.hcvt_spec binary32 binary64 md a) (Real.exp_pos _) b (fmax_exp h2)
  refine ⟨c1, c2, le_trans c3 (le_of_eq ?_)⟩
  rw [← mul_assoc, ruf_K, etaf_eq, hf]

-- exp(1), exp(-100) (subnormal), exp(88.7228)
example : CC.expFloat .nearest 0x3F800000 = 0x402DF854 ∧ CC.expFloat .nearest 0xC2C80000 = 27 ∧ CC.expFloat .nearest 0x42B17217 = 0x7F7FFF84 := by decide +kernel

/-- **C65.** Above 88.72283172607422 the exponential is greater than `2^128`, and the result is the overflow result of the rounding mode. -/
theorem C65_expf_overflow (md : Mode) {x : ℕ} (hx : binary32.Finite x) (h : binary32.val 0x42B17217 < binary32.val x) :
    (2 : ℝ) ^ (128 : ℤ) < Real.exp (binary32.val x) ∧ CC.expFloat md x = if md = .nearest ∨ md = .up then 0x7F800000 else 0x7F7FFFFF := by
  constructor
  · rw [← exp_int_log]
    refine Real.exp_lt_exp.2 ?_
    have := fmax_next h
    push_cast
    linarith
  · have hT := finite_absTop hx
    have f1 : binary32.Finite 0x42B17217 := by decide +kernel
    have h88 := absTopf_ge hx.valid
    have hv := h
    rw [val_fmax] at hv
    have c : (88 : ℝ) ≤ 0xB17217 / 2 ^ 17 := by norm_num
    have h3 := h88.2 (by rw [abs_of_pos (by linarith)]; linarith)
    unfold CC.expFloat
    simp only
    rw [if_neg (by rintro ⟨-, hc⟩; rw [hc] at hT; revert hT; decide +kernel), if_neg (by omega), if_pos ⟨h3, by
      unfold hgt
      rw [CC.hlt_finite binary32 f1 hx]; exact h⟩]
    cases md <;> decide +kernel

example : CC.expFloat .nearest 0x42B17218 = 0x7F800000 ∧ CC.expFloat .zero 0x42B17218 = 0x7F7FFFFF := by decide +kernel

/-- **C65.** Below -103.97207641601562 the exponential is less than half the least subnormal; the result is zero in the modes downward and towards zero, and
the least subnormal in the others. -/
theorem C65_expf_underflow (md : Mode) {x : ℕ} (hx : binary32.Finite x) (h : binary32.val x < binary32.val 0xC2CFF1B4) :
    Real.exp (binary32.val x) < (2 : ℝ) ^ (-150 : ℤ) ∧ CC.expFloat md x = if md = .down ∨ md = .zero then 0 else 1 := by
  constructor
  · rw [← exp_int_log]
    refine Real.exp_lt_exp.2 ?_
    have := fmin_next h
    push_cast
    linarith
  · rw [expFloat_low md hx h]
    cases md <;> decide +kernel

theorem val_one_sub : binary32.val 1 = (2 : ℝ) ^ (-149 : ℤ) := by
  rw [binary32.val_eq]
  have : binary32.umag (binary32.mag 1) = 1 := by decide +kernel
  rw [this]
  have : binary32.sgn 1 = false := by decide +kernel
  rw [this, ← etaf_eq]; simp [sg, etaf]

/-- **C65, negation.** In round-to-nearest every finite `x` below -103.97207641601562 gives the least subnormal although zero is nearer to `e^x`. -/
theorem C65_expf_underflow_wrong {x : ℕ} (hx : binary32.Finite x) (h : binary32.val x < binary32.val 0xC2CFF1B4) :
    CC.expFloat .nearest x = 1 ∧ |binary32.val 0 - Real.exp (binary32.val x)| < |binary32.val 1 - Real.exp (binary32.val x)| := by
  obtain ⟨h1, h2⟩ := C65_expf_underflow .nearest hx h
  refine ⟨by rw [h2]; decide, ?_⟩
  have v0 : binary32.val 0 = 0 := (binary32.val_eq_zero_iff _).2 (by decide +kernel)
  have h3 := Real.exp_pos (binary32.val x)
  have e : (2 : ℝ) ^ (-149 : ℤ) = 2 * 2 ^ (-150 : ℤ) := by
    rw [show (-149 : ℤ) = -150 + 1 by norm_num, two_zpow_succ]
  rw [v0, val_one_sub, zero_sub, abs_neg, abs_of_pos h3, e, abs_of_pos (by linarith)]
  linarith

-- -200
example : binary32.Finite 0xC3480000 ∧ binary32.hlt 0xC3480000 0xC2CFF1B4 = true ∧ CC.expFloat .nearest 0xC3480000 = 1 := by decide +kernel

/-- **C65.** Special arguments: `exp(±0) = 1`, `exp(+∞) = +∞`, `exp(-∞) = +0`, and a NaN gives a NaN. -/
theorem C65_expf_special (md : Mode) :
    CC.expFloat md 0 = 0x3F800000 ∧ CC.expFloat md 0x80000000 = 0x3F800000 ∧ CC.expFloat md 0x7F800000 = 0x7F800000 ∧ CC.expFloat md 0xFF800000 = 0 ∧
      ∀ x, binary32.IsNaN x → binary32.IsNaN (CC.expFloat md x) := by
  refine ⟨by cases md <;> decide +kernel, by cases md <;> decide +kernel, by cases md <;> decide +kernel, by cases md <;> decide +kernel, ?_⟩
  intro x hx
  have hT : binary32.bexp x = 255 := hx.2.1
  have hT' : 0x7f8 ≤ (x >>> 20) &&& 0x7ff := by
    rw [absTopf hx.1]
    have h1 : binary32.mag x = x % 2 ^ 31 := rfl
    have h2 : binary32.bexp x = binary32.mag x / 2 ^ 23 := rfl
    omega
  unfold CC.expFloat
  simp only
  rw [if_neg (by rintro ⟨-, hc⟩; rw [hc] at hx; revert hx; decide +kernel), if_pos (by omega)]
  unfold hadd
  rw [if_pos (by rw [(binary32.nanB_iff hx.1).2 hx]; simp)]
  exact binary32.isNaN_qnan

example : binary32.IsNaN 0x7FC00001 := by decide +kernel

end Verif
