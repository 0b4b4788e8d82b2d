import Verif.Lemmas.Exp1

/-!
# The table of `2^(i/128)`: every entry is right to `2^-105`
-/

namespace Verif
open Fmt Real

/-- significand of the head of entry `i` -/
def tabH (i : ℕ) : ℕ := CC.expTab.getD (2 * i + 1) 0 + i * 2 ^ 45 - 1022 * 2 ^ 52
/-- tail of entry `i` -/
def tabT (i : ℕ) : ℕ := CC.expTab.getD (2 * i) 0

/-- what is checked of one entry -/
def tabOk (i : ℕ) : Bool :=
  let h := tabH i
  let t := binary64.ival (tabT i)
  let a : ℤ := h * (2 ^ 1074 + t)
  decide (2 ^ 52 ≤ h) && decide (h < 2 ^ 53) && decide (CC.expTab.getD (2 * i + 1) 0 + i * 2 ^ 45 = 1022 * 2 ^ 52 + h) &&
    decide (tabT i < 2 ^ 64) && decide (binary64.mag (tabT i) < binary64.infMag) &&
    decide (|t| ≤ 2 ^ 1021) && decide ((a * (2 ^ 105 - 1)) ^ 128 ≤ 2 ^ i * (2 ^ 1231) ^ 128) && decide (2 ^ i * (2 ^ 1231) ^ 128 ≤ (a * (2 ^ 105 + 1)) ^ 128)

theorem tab_ok : ∀ i < 128, tabOk i = true := by decide +kernel

theorem root128 {A ε L : ℝ} (n : ℕ) (hL : L = log 2) (hA : 0 < A) (hε : 0 < ε) (i : ℕ) (h1 : (A * (1 - ε)) ^ (n + 1) ≤ 2 ^ i)
    (h2 : (2 : ℝ) ^ i ≤ (A * (1 + ε)) ^ (n + 1)) : |exp (i * (L / (n + 1))) - A| ≤ A * ε := by
  have he : exp (i * (L / (n + 1))) ^ (n + 1) = 2 ^ i := by
    rw [← Real.exp_nat_mul]
    have : ((n + 1 : ℕ) : ℝ) * (i * (L / (n + 1))) = i * L := by push_cast; field_simp
    rw [this, Real.exp_nat_mul, hL, Real.exp_log (by norm_num)]
  have hp := Real.exp_pos (i * (L / (n + 1)))
  rw [← he] at h1 h2
  have h3 : A * (1 - ε) ≤ exp (i * (L / (n + 1))) := by
    by_contra hc
    push Not at hc
    exact absurd h1 (not_le.2 (pow_lt_pow_left₀ hc hp.le (by omega)))
  have h4 : exp (i * (L / (n + 1))) ≤ A * (1 + ε) := le_of_pow_le_pow_left₀ (by omega) (by positivity) h2
  rw [abs_le]; constructor <;> linarith

/-- the value of entry `i`: head, tail, and their distance from `2^(i/128)` -/
theorem tab_spec {i : ℕ} (hi : i < 128) :
    2 ^ 52 ≤ tabH i ∧ tabH i < 2 ^ 53 ∧ CC.expTab.getD (2 * i + 1) 0 + i * 2 ^ 45 = 1022 * 2 ^ 52 + tabH i ∧
      binary64.Finite (tabT i) ∧ |binary64.val (tabT i)| ≤ 1 / 2 ^ 53 ∧
      |exp (i * (log 2 / 128)) - (tabH i : ℝ) / 2 ^ 52 * (1 + binary64.val (tabT i))| ≤ (tabH i : ℝ) / 2 ^ 52 * (1 + binary64.val (tabT i)) * (1 / 2 ^ 105) := by
  have h := tab_ok i hi
  simp only [tabOk, Bool.and_eq_true, decide_eq_true_eq] at h
  obtain ⟨⟨⟨⟨⟨⟨⟨h1, h2⟩, h3⟩, h4⟩, h5⟩, h6⟩, h7⟩, h8⟩ := h
  have hf : binary64.Finite (tabT i) := (binary64.finite_iff _).2 ⟨h4, h5⟩
  have hv : binary64.val (tabT i) = binary64.ival (tabT i) / 2 ^ 1074 := by
    rw [binary64.val_eq_ival, binary64.minSub_eq_zpow]
    have : binary64.emin = -((1074 : ℕ) : ℤ) := by decide +kernel
    rw [this, zpow_neg, zpow_natCast]; rfl
  have hT : |binary64.val (tabT i)| ≤ 1 / 2 ^ 53 := by
    rw [hv, abs_div, abs_of_pos (show (0 : ℝ) < 2 ^ 1074 by positivity), div_le_iff₀ (by positivity)]
    have : |(binary64.ival (tabT i) : ℝ)| ≤ 2 ^ 1021 := by exact_mod_cast h6
    refine le_trans this (le_of_eq ?_)
    rw [show 1074 = 1021 + 53 from rfl, pow_add]; field_simp
  refine ⟨h1, h2, h3, hf, hT, ?_⟩
  have hT' := abs_le.1 hT
  set T := binary64.val (tabT i)
  have hH : (0 : ℝ) < (tabH i : ℝ) := by
    have : 0 < tabH i := lt_of_lt_of_le (by norm_num) h1
    exact_mod_cast this
  have hA : 0 < (tabH i : ℝ) / 2 ^ 52 * (1 + T) := by
    have : (1 : ℝ) / 2 ^ 53 < 1 := by norm_num
    have : 0 < 1 + T := by have := hT'.1; clear_value T; clear h7 h8 h6; linarith
    exact mul_pos (div_pos hH (by norm_num)) this
  have e128 : (log 2 / 128 : ℝ) = log 2 / ((127 : ℕ) + 1) := by congr 1; norm_num
  rw [e128]
  refine root128 (A := (tabH i : ℝ) / 2 ^ 52 * (1 + T)) (ε := 1 / 2 ^ 105) 127 rfl hA (by positivity) i ?_ ?_
  · have : (((tabH i : ℤ) * (2 ^ 1074 + binary64.ival (tabT i)) * (2 ^ 105 - 1) : ℤ) : ℝ) ^ 128 ≤ 2 ^ i * (2 ^ 1231) ^ 128 := by exact_mod_cast h7
    have e : (tabH i : ℝ) / 2 ^ 52 * (1 + T) * (1 - 1 / 2 ^ 105) = (((tabH i : ℤ) * (2 ^ 1074 + binary64.ival (tabT i)) * (2 ^ 105 - 1) : ℤ) : ℝ) / 2 ^ 1231 := by
      rw [hv]; push_cast
      rw [show (2 : ℝ) ^ 1231 = 2 ^ 52 * 2 ^ 1074 * 2 ^ 105 by rw [← pow_add, ← pow_add]]
      field_simp
      norm_num
    rw [e, div_pow, div_le_iff₀ (by positivity)]; exact this
  · have : 2 ^ i * (2 ^ 1231) ^ 128 ≤ (((tabH i : ℤ) * (2 ^ 1074 + binary64.ival (tabT i)) * (2 ^ 105 + 1) : ℤ) : ℝ) ^ 128 := by exact_mod_cast h8
    have e : (tabH i : ℝ) / 2 ^ 52 * (1 + T) * (1 + 1 / 2 ^ 105) = (((tabH i : ℤ) * (2 ^ 1074 + binary64.ival (tabT i)) * (2 ^ 105 + 1) : ℤ) : ℝ) / 2 ^ 1231 := by
      rw [hv]; push_cast
      rw [show (2 : ℝ) ^ 1231 = 2 ^ 52 * 2 ^ 1074 * 2 ^ 105 by rw [← pow_add, ← pow_add]]
      field_simp
      norm_num
    rw [e, div_pow, le_div_iff₀ (by positivity)]; exact this

end Verif
