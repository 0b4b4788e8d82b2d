import Mathlib.Analysis.SpecialFunctions.Gamma.BohrMollerup
import Mathlib.Analysis.SpecialFunctions.Gaussian.GaussianIntegral
import Mathlib.Analysis.Real.Pi.Bounds
import Verif.Lemmas.Exp6
import Verif.Model.Gamma

/-!
# Lemmas on the gamma function
-/

namespace Verif
open Fmt Real

theorem sqrt_pi_le : √π ≤ 17725 / 10000 := by
  rw [Real.sqrt_le_left (by norm_num)]
  have := Real.pi_lt_d4
  norm_num at this ⊢
  linarith

/-- the gamma function near 1 -/
theorem gamma_near_one {x : ℝ} (h : |x| ≤ 1 / 2) : |Real.Gamma (x + 1) - 1| ≤ 1546 / 1000 * |x| := by
  have hc := Real.convexOn_Gamma
  have hs := sqrt_pi_le
  have g1 : Real.Gamma 1 = 1 := Real.Gamma_one
  have g2 : Real.Gamma 2 = 1 := Real.Gamma_two
  have gh : Real.Gamma (1 / 2) = √π := Real.Gamma_one_half_eq
  have hx := abs_le.1 h
  have m1 : (1 : ℝ) ∈ Set.Ioi (0 : ℝ) := by simp
  have m2 : (2 : ℝ) ∈ Set.Ioi (0 : ℝ) := by simp
  have mh : (1 / 2 : ℝ) ∈ Set.Ioi (0 : ℝ) := by simp
  have mt : x + 1 ∈ Set.Ioi (0 : ℝ) := by simp; linarith
  rcases le_or_gt 0 x with h0 | h0
  · rw [abs_of_nonneg h0]
    have a1 := hc.2 m1 m2 (show 0 ≤ 1 - x by linarith) h0 (by ring)
    simp only [smul_eq_mul, g1, g2] at a1
    rw [show (1 - x) * 1 + x * 2 = x + 1 by ring] at a1
    have hd : 0 < 1 / 2 + x := by linarith
    have a2 := hc.2 mh mt (show 0 ≤ x / (1 / 2 + x) by positivity) (show 0 ≤ 1 / 2 / (1 / 2 + x) by positivity) (by field_simp; ring)
    simp only [smul_eq_mul] at a2
    rw [show x / (1 / 2 + x) * (1 / 2) + 1 / 2 / (1 / 2 + x) * (x + 1) = 1 by field_simp; ring, g1, gh] at a2
    have a3 := mul_le_mul_of_nonneg_left a2 hd.le
    rw [show (1 / 2 + x) * (x / (1 / 2 + x) * √π + 1 / 2 / (1 / 2 + x) * Real.Gamma (x + 1)) = x * √π + 1 / 2 * Real.Gamma (x + 1) by field_simp] at a3
    have a4 := mul_le_mul_of_nonneg_left hs h0
    rw [abs_le]; constructor <;> linarith
  · rw [abs_of_neg h0]
    have a1 := hc.2 mh m1 (show 0 ≤ -2 * x by linarith) (show 0 ≤ 1 + 2 * x by linarith) (by ring)
    simp only [smul_eq_mul, g1, gh] at a1
    rw [show -2 * x * (1 / 2) + (1 + 2 * x) * 1 = x + 1 by ring] at a1
    have hd : 0 < 1 - x := by linarith
    have a2 := hc.2 mt m2 (show 0 ≤ 1 / (1 - x) by positivity) (show 0 ≤ -x / (1 - x) from div_nonneg (by linarith) hd.le) (by field_simp; ring)
    simp only [smul_eq_mul] at a2
    rw [show 1 / (1 - x) * (x + 1) + -x / (1 - x) * 2 = 1 by field_simp; ring, g1, g2] at a2
    have a3 := mul_le_mul_of_nonneg_left a2 hd.le
    rw [show (1 - x) * (1 / (1 - x) * Real.Gamma (x + 1) + -x / (1 - x) * 1) = Real.Gamma (x + 1) - x by field_simp; ring] at a3
    have a4 := mul_le_mul_of_nonneg_left hs (show 0 ≤ -x by linarith)
    rw [abs_le]; constructor <;> linarith

/-- the factorial loop while it is exact -/
theorem fact_exact (md : Mode) {n : ℕ} (hn : n < 22) : binary64.Finite (CC.factLoop md n) ∧ binary64.val (CC.factLoop md n) = ((n + 1).factorial : ℕ) := by
  have h : ∀ n : ℕ, n < 22 → ∀ md : Mode, binary64.mag (CC.factLoop md n) < binary64.infMag ∧ CC.factLoop md n < 2 ^ 64 ∧
      binary64.ival (CC.factLoop md n) = ((n + 1).factorial : ℤ) * binary64.uscale := by
    intro n hn md; revert n; cases md <;> decide +kernel
  obtain ⟨h1, h2, h3⟩ := h n hn md
  refine ⟨(binary64.finite_iff _).2 ⟨h2, h1⟩, ?_⟩
  rw [binary64.val_eq_ival, h3]
  push_cast
  rw [mul_assoc, binary64.uscale_minSub, mul_one]

theorem eta_small {v : ℝ} (md : Mode) (hv : 1 ≤ v) : eta ≤ ru md * (v * (1 / 1000)) := by
  have h1 := eta_le
  have h2 := ru_ge md
  have h3 : (1 : ℝ) / 2 ^ 53 * (1 / 1000) ≤ ru md * (v * (1 / 1000)) := mul_le_mul h2 (by linarith) (by positivity) (ru_pos md).le
  have c : (1 : ℝ) / 2 ^ 200 ≤ 1 / 2 ^ 53 * (1 / 1000) := by norm_num
  linarith

theorem fact_bound : ∃ W : ℝ, (∀ n : ℕ, n ≤ 169 → ((n.factorial : ℕ) : ℝ) ≤ W) ∧ W * 2 ≤ 3 / 2 * (2 : ℝ) ^ (1023 : ℤ) := by
  have h : 2 * (2 * (169 : ℕ).factorial) ≤ 3 * 2 ^ 1023 := by decide +kernel
  have hn : ∀ n : ℕ, n ≤ 169 → n.factorial ≤ (169 : ℕ).factorial := fun n hn => Nat.factorial_le hn
  generalize (169 : ℕ).factorial = w at h hn
  refine ⟨w, fun n h => by exact_mod_cast hn n h, ?_⟩
  have h' : (2 : ℝ) * (2 * (w : ℝ)) ≤ 3 * (2 : ℝ) ^ (1023 : ℕ) := by exact_mod_cast h
  have e : (2 : ℝ) ^ (1023 : ℤ) = (2 : ℝ) ^ (1023 : ℕ) := zpow_natCast _ _
  rw [e]
  generalize (2 : ℝ) ^ (1023 : ℕ) = y at h' ⊢
  linarith

/-- one rounded multiplication of the factorial loop -/
theorem fact_step {u η e F N p r : ℝ} (hu : 0 < u) (hN : 1 ≤ N) (hp : 1 ≤ p) (he : e ≤ 1 / 10 ^ 6) (hF : |F - N| ≤ e * N) (hη : ∀ v, 1 ≤ v → η ≤ u * (v * (1 / 1000)))
    (hr : |r - F * p| ≤ u * |F * p| + η) : |r - N * p| ≤ (e + 101 / 100 * u) * (N * p) := by
  have hNp : 1 ≤ N * p := by nlinarith
  have h1 : |F * p - N * p| ≤ e * (N * p) := by
    rw [← sub_mul, abs_mul, abs_of_pos (show 0 < p by linarith)]
    have := mul_le_mul_of_nonneg_right hF (show 0 ≤ p by linarith)
    linarith
  have h2 : |F * p| ≤ N * p * (1001 / 1000) := by
    have h3 := abs_near h1 (le_of_eq (abs_of_pos (show 0 < N * p by linarith)))
    have h4 : e * (N * p) ≤ 1 / 10 ^ 6 * (N * p) := mul_le_mul_of_nonneg_right he (by linarith)
    linarith
  have h5 := mul_le_mul_of_nonneg_left h2 hu.le
  have h6 := hη _ hNp
  have h7 := abs_tri hr h1
  have h8 : 0 ≤ u * (N * p) := by positivity
  linarith

theorem fact_err (md : Mode) : ∀ n : ℕ, n ≤ 168 → binary64.Finite (CC.factLoop md n) ∧
    |binary64.val (CC.factLoop md n) - ((n + 1).factorial : ℕ)| ≤ ((n + 1 - 22 : ℕ) : ℝ) * (101 / 100 * ru md) * ((n + 1).factorial : ℕ) := by
  intro n
  induction n with
  | zero =>
    intro _
    obtain ⟨h1, h2⟩ := fact_exact md (n := 0) (by norm_num)
    exact ⟨h1, by rw [h2, sub_self, abs_zero]; simp⟩
  | succ n ih =>
    intro hn
    obtain ⟨i1, i2⟩ := ih (by omega)
    by_cases hx : n + 1 < 22
    · obtain ⟨h1, h2⟩ := fact_exact md hx
      refine ⟨h1, ?_⟩
      rw [h2, sub_self, abs_zero]
      exact mul_nonneg (mul_nonneg (Nat.cast_nonneg _) (by have := ru_pos md; linarith)) (Nat.cast_nonneg _)
    have hu := ru_pos md
    have hu2 := ru_le md
    obtain ⟨f2, v2⟩ := ofInt_ex64 md (z := (n : ℤ) + 2) (by rw [abs_of_nonneg (by omega)]; norm_num; omega)
    have hN : (1 : ℝ) ≤ ((n + 1).factorial : ℕ) := by exact_mod_cast Nat.succ_le_of_lt (Nat.factorial_pos _)
    have hp : (1 : ℝ) ≤ (n : ℝ) + 2 := by have : (0 : ℝ) ≤ n := Nat.cast_nonneg n; linarith
    have hpn : (((n + 1 + 1).factorial : ℕ) : ℝ) = ((n + 1).factorial : ℕ) * ((n : ℝ) + 2) := by
      rw [Nat.factorial_succ (n + 1)]; push_cast; ring
    obtain ⟨W, hW, hW2⟩ := fact_bound
    have hle := hW (n + 1 + 1) (by omega)
    have e1 : ((n + 1 - 22 : ℕ) : ℝ) ≤ 150 := by exact_mod_cast (by omega : n + 1 - 22 ≤ 150)
    have e0 : (0 : ℝ) ≤ ((n + 1 - 22 : ℕ) : ℝ) := Nat.cast_nonneg _
    have he : ((n + 1 - 22 : ℕ) : ℝ) * (101 / 100 * ru md) ≤ 1 / 10 ^ 6 := by
      refine le_trans (mul_le_mul e1 (show 101 / 100 * ru md ≤ 101 / 100 * (1 / 2 ^ 52) by linarith) (by positivity) (by norm_num)) (by norm_num)
    have he0 : 0 ≤ ((n + 1 - 22 : ℕ) : ℝ) * (101 / 100 * ru md) := by positivity
    have R := binary64.hmul_spec md i1 f2
    rw [v2] at R
    push_cast at R
    have hb : |binary64.val (CC.factLoop md n) * ((n : ℝ) + 2)| ≤ 3 / 2 * (2 : ℝ) ^ (1023 : ℤ) := by
      have hF : |binary64.val (CC.factLoop md n)| ≤ ((n + 1).factorial : ℕ) * 2 := by
        refine le_trans (abs_near i2 (le_of_eq (abs_of_pos (lt_of_lt_of_le one_pos hN)))) ?_
        have := mul_le_mul_of_nonneg_right he (show (0 : ℝ) ≤ ((n + 1).factorial : ℕ) by linarith)
        linarith
      rw [abs_mul, abs_of_pos (show (0 : ℝ) < (n : ℝ) + 2 by linarith)]
      have := mul_le_mul_of_nonneg_right hF (show (0 : ℝ) ≤ (n : ℝ) + 2 by linarith)
      rw [hpn] at hle
      refine le_trans this (le_trans ?_ hW2)
      linarith
    obtain ⟨fr, er⟩ := err64c R hb
    refine ⟨fr, ?_⟩
    have hs := fact_step hu hN hp he i2 (fun v hv => eta_small md hv) er
    have e3 : ((n + 1 + 1 - 22 : ℕ) : ℝ) = ((n + 1 - 22 : ℕ) : ℝ) + 1 := by exact_mod_cast (by omega : n + 1 + 1 - 22 = n + 1 - 22 + 1)
    rw [hpn, e3]
    refine le_trans hs (le_of_eq (by ring))

end Verif
