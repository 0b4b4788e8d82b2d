import Mathlib.Analysis.SpecialFunctions.Log.Deriv
import Verif.Lemmas.Ulp

/-!
# The natural logarithm of 2 to 150 bits, from its power series
-/

namespace Verif
open Real

/-- `Σ_{k<K} ⌊D / ((k+1) 2^(k+1))⌋` -/
def logFix (D : ℕ) : ℕ → ℕ
  | 0 => 0
  | K + 1 => logFix D K + D / ((K + 1) * 2 ^ (K + 1))

theorem logFix_partial (D K : ℕ) :
    |(D : ℝ) * ∑ i ∈ Finset.range K, ((2 : ℝ)⁻¹) ^ (i + 1) / (i + 1) - (logFix D K : ℝ)| ≤ K := by
  induction K with
  | zero => simp [logFix]
  | succ K ih =>
    rw [Finset.sum_range_succ, logFix]
    push_cast
    have hd : (0 : ℝ) < ((K + 1) * 2 ^ (K + 1) : ℕ) := by positivity
    have h1 : ((D / ((K + 1) * 2 ^ (K + 1)) : ℕ) : ℝ) ≤ (D : ℝ) / ((K + 1) * 2 ^ (K + 1) : ℕ) := Nat.cast_div_le
    have h2 : (D : ℝ) / ((K + 1) * 2 ^ (K + 1) : ℕ) < ((D / ((K + 1) * 2 ^ (K + 1)) : ℕ) : ℝ) + 1 := by
      rw [div_lt_iff₀ hd]
      have := Nat.lt_div_mul_add (a := D) (b := (K + 1) * 2 ^ (K + 1)) (by positivity)
      have : D < (D / ((K + 1) * 2 ^ (K + 1)) + 1) * ((K + 1) * 2 ^ (K + 1)) := by rw [add_mul, one_mul]; exact this
      exact_mod_cast this
    have e : (D : ℝ) * (((2 : ℝ)⁻¹) ^ (K + 1) / (K + 1)) = (D : ℝ) / ((K + 1) * 2 ^ (K + 1) : ℕ) := by
      push_cast; rw [inv_pow]; field_simp
    rw [mul_add, e]
    rw [abs_le] at ih ⊢
    constructor <;> linarith [ih.1, ih.2]

theorem logFix_spec (D K : ℕ) : |(D : ℝ) * log 2 - (logFix D K : ℝ)| ≤ K + (D : ℝ) / 2 ^ K := by
  have h := Real.abs_log_sub_add_sum_range_le (show |(2⁻¹ : ℝ)| < 1 by rw [abs_of_pos (by norm_num)]; norm_num) K
  have e1 : log (1 - (2 : ℝ)⁻¹) = - log 2 := by rw [show (1 : ℝ) - 2⁻¹ = 2⁻¹ by norm_num, Real.log_inv]
  have e2 : |(2 : ℝ)⁻¹| ^ (K + 1) / (1 - |(2 : ℝ)⁻¹|) = 1 / 2 ^ K := by
    rw [abs_of_pos (by norm_num : (0 : ℝ) < 2⁻¹), pow_succ, inv_pow]; field_simp; norm_num
  rw [e1, e2] at h
  have h' := mul_le_mul_of_nonneg_left h (Nat.cast_nonneg (α := ℝ) D)
  rw [← abs_of_nonneg (Nat.cast_nonneg (α := ℝ) D), ← abs_mul, abs_of_nonneg (Nat.cast_nonneg (α := ℝ) D), mul_one_div] at h'
  have hp := logFix_partial D K
  rw [mul_add] at h'
  rw [abs_le] at *
  constructor <;> linarith [h'.1, h'.2, hp.1, hp.2]

/-- `ln 2` to 150 bits -/
theorem ln2_bounds : (1013035739299659071135698605846798551586536899114 : ℝ) / 2 ^ 160 ≤ log 2 ∧ log 2 ≤ 1013035739299659071135698605846798551586536899474 / 2 ^ 160 := by
  have h := logFix_spec (2 ^ 160) 170
  have e : logFix (2 ^ 160) 170 = 1013035739299659071135698605846798551586536899294 := by decide +kernel
  rw [e, abs_le] at h
  push_cast at h
  have h2 : (2 : ℝ) ^ 160 / 2 ^ 170 ≤ 1 := by norm_num
  constructor
  · rw [div_le_iff₀ (by positivity)]; linarith [h.1]
  · rw [le_div_iff₀ (by positivity)]; linarith [h.2]

end Verif
