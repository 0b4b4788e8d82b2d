import Mathlib.NumberTheory.Harmonic.EulerMascheroni
import Mathlib.Analysis.Complex.ExponentialBounds
import Verif.Lemmas.Ln2

/-!
# Tight rational bounds of the mathematical constants of `numbers.hpp`
-/

namespace Verif
open Real Filter Topology

/-- partial sums of the series of `log (1 + 1/a)` in `1/(2a+1)` -/
theorem log_inv_bounds {a : ℝ} (ha : 0 < a) (K : ℕ) :
    ∑ k ∈ Finset.range K, 2 * (1 / (2 * (k : ℝ) + 1)) * (1 / (2 * a + 1)) ^ (2 * k + 1) ≤ log (1 + a⁻¹) ∧
    log (1 + a⁻¹) ≤ ∑ k ∈ Finset.range K, 2 * (1 / (2 * (k : ℝ) + 1)) * (1 / (2 * a + 1)) ^ (2 * k + 1) +
      2 * (1 / (2 * a + 1)) ^ (2 * K + 1) * (1 - (1 / (2 * a + 1)) ^ 2)⁻¹ := by
  have h := hasSum_log_one_add_inv ha
  set t := 1 / (2 * a + 1) with ht
  have t0 : 0 < t := by positivity
  have t1 : t < 1 := by rw [ht, div_lt_one (by linarith)]; linarith
  have h0 := (hasSum_nat_add_iff' (f := fun k : ℕ => (2 : ℝ) * (1 / (2 * (k : ℝ) + 1)) * t ^ (2 * k + 1)) K).2 h
  have q0 : 0 ≤ t ^ 2 := sq_nonneg _
  have q1 : t ^ 2 < 1 := by nlinarith
  have hg := (hasSum_geometric_of_lt_one q0 q1).mul_left (2 * t ^ (2 * K + 1))
  constructor
  · have := h0.nonneg fun k => by positivity
    linarith
  · have := hasSum_le (fun k => ?_) h0 hg
    · linarith
    · have e : t ^ (2 * (k + K) + 1) = t ^ (2 * K + 1) * (t ^ 2) ^ k := by
        rw [← pow_mul, ← pow_add]; congr 1; ring
      have e1 : (1 : ℝ) / (2 * ((k + K : ℕ) : ℝ) + 1) ≤ 1 := by
        rw [div_le_one (by positivity)]
        have := Nat.cast_nonneg (α := ℝ) (k + K)
        linarith
      show (2 : ℝ) * (1 / (2 * ((k + K : ℕ) : ℝ) + 1)) * t ^ (2 * (k + K) + 1) ≤ _
      rw [e]
      have e2 : 0 ≤ t ^ (2 * K + 1) * (t ^ 2) ^ k := by positivity
      nlinarith

/-- `log 10 = 3 log 2 + log (5/4)` to 22 digits -/
theorem ln10_bounds : (2.3025850929940456840179 : ℝ) ≤ log 10 ∧ log 10 ≤ 2.3025850929940456840181 := by
  have e : log 10 = 3 * log 2 + log (1 + (4 : ℝ)⁻¹) := by
    rw [show (10 : ℝ) = 2 ^ 3 * (1 + (4 : ℝ)⁻¹) by norm_num, log_mul (by norm_num) (by norm_num), log_pow]; norm_num
  obtain ⟨h1, h2⟩ := log_inv_bounds (show (0 : ℝ) < 4 by norm_num) 12
  obtain ⟨l1, l2⟩ := ln2_bounds
  rw [e]
  norm_num [Finset.sum_range_succ] at h1 h2 l1 l2 ⊢
  constructor <;> linarith

theorem ln2_digits : (0.6931471805599453094172321 : ℝ) ≤ log 2 ∧ log 2 ≤ 0.6931471805599453094172322 := by
  obtain ⟨l1, l2⟩ := ln2_bounds
  norm_num at l1 l2 ⊢
  constructor <;> linarith

theorem exp1_digits : (2.718281828459045235339 : ℝ) ≤ exp 1 ∧ exp 1 ≤ 2.718281828459045235370 := by
  obtain ⟨h1, h2⟩ := abs_le.1 exp_one_near_20
  norm_num at h1 h2 ⊢
  constructor <;> linarith

/-- the corrections of the Euler–Maclaurin expansion of the harmonic numbers -/
noncomputable def egR (c x : ℝ) : ℝ := -(1 / 2) / x + 1 / 12 / x ^ 2 - 1 / 120 / x ^ 4 + c / x ^ 6

theorem eg_up {x : ℝ} (hx : 0 < x) : 1 / (x + 1) - log (1 + x⁻¹) + egR (1 / 4) (x + 1) - egR (1 / 4) x ≤ 0 := by
  have h := (log_inv_bounds hx 3).1
  have e : 1 / (x + 1) - ∑ k ∈ Finset.range 3, 2 * (1 / (2 * (k : ℝ) + 1)) * (1 / (2 * x + 1)) ^ (2 * k + 1) + egR (1 / 4) (x + 1) - egR (1 / 4) x
      = -((1 / 4 + 4 * x ^ 1 + 3449 / 120 * x ^ 2 + 3671 / 30 * x ^ 3 + 2743 / 8 * x ^ 4 + 2655 / 4 * x ^ 5 + 54337 / 60 * x ^ 6 + 4348 / 5 * x ^ 7 + 11423 / 20 * x ^ 8 + 1415 / 6 * x ^ 9 + 283 / 6 * x ^ 10) / (x ^ 6 * (x + 1) ^ 6 * (2 * x + 1) ^ 5)) := by
    unfold egR
    have h1 : x ≠ 0 := hx.ne'
    have h2 : x + 1 ≠ 0 := by positivity
    have h3 : 2 * x + 1 ≠ 0 := by positivity
    simp only [Finset.sum_range_succ, Finset.sum_range_zero]
    push_cast
    norm_num
    field_simp
    ring
  have : 0 ≤ (1 / 4 + 4 * x ^ 1 + 3449 / 120 * x ^ 2 + 3671 / 30 * x ^ 3 + 2743 / 8 * x ^ 4 + 2655 / 4 * x ^ 5 + 54337 / 60 * x ^ 6 + 4348 / 5 * x ^ 7 + 11423 / 20 * x ^ 8 + 1415 / 6 * x ^ 9 + 283 / 6 * x ^ 10) / (x ^ 6 * (x + 1) ^ 6 * (2 * x + 1) ^ 5) := by positivity
  linarith

theorem eg_lo {x : ℝ} (hx : 0 < x) : 0 ≤ 1 / (x + 1) - log (1 + x⁻¹) + egR (-(1 / 4)) (x + 1) - egR (-(1 / 4)) x := by
  have h := (log_inv_bounds hx 3).2
  have et : 2 * (1 / (2 * x + 1)) ^ (2 * 3 + 1) * (1 - (1 / (2 * x + 1)) ^ 2)⁻¹ = 1 / 2 / (x * (x + 1) * (2 * x + 1) ^ 5) := by
    have h1 : x ≠ 0 := hx.ne'
    have h2 : x + 1 ≠ 0 := by positivity
    have h3 : 2 * x + 1 ≠ 0 := by positivity
    have h4 : 1 - (1 / (2 * x + 1)) ^ 2 = 4 * x * (x + 1) / (2 * x + 1) ^ 2 := by field_simp; ring
    rw [h4, div_pow, one_pow, show 2 * 3 + 1 = 7 from rfl]
    field_simp
    try ring
  rw [et] at h
  have e : 1 / (x + 1) - (∑ k ∈ Finset.range 3, 2 * (1 / (2 * (k : ℝ) + 1)) * (1 / (2 * x + 1)) ^ (2 * k + 1) + 1 / 2 / (x * (x + 1) * (2 * x + 1) ^ 5)) + egR (-(1 / 4)) (x + 1) - egR (-(1 / 4)) x
      = (1 / 4 + 4 * x ^ 1 + 3451 / 120 * x ^ 2 + 3679 / 30 * x ^ 3 + 2757 / 8 * x ^ 4 + 2679 / 4 * x ^ 5 + 55073 / 60 * x ^ 6 + 4427 / 5 * x ^ 7 + 11677 / 20 * x ^ 8 + 725 / 3 * x ^ 9 + 145 / 3 * x ^ 10) / (x ^ 6 * (x + 1) ^ 6 * (2 * x + 1) ^ 5) := by
    unfold egR
    have h1 : x ≠ 0 := hx.ne'
    have h2 : x + 1 ≠ 0 := by positivity
    have h3 : 2 * x + 1 ≠ 0 := by positivity
    simp only [Finset.sum_range_succ, Finset.sum_range_zero]
    push_cast
    norm_num
    field_simp
    ring
  have : 0 ≤ (1 / 4 + 4 * x ^ 1 + 3451 / 120 * x ^ 2 + 3679 / 30 * x ^ 3 + 2757 / 8 * x ^ 4 + 2679 / 4 * x ^ 5 + 55073 / 60 * x ^ 6 + 4427 / 5 * x ^ 7 + 11677 / 20 * x ^ 8 + 725 / 3 * x ^ 9 + 145 / 3 * x ^ 10) / (x ^ 6 * (x + 1) ^ 6 * (2 * x + 1) ^ 5) := by positivity
  linarith

/-- harmonic numbers with the corrections -/
noncomputable def egW (c : ℝ) (n : ℕ) : ℝ := harmonic n - log n + egR c n

theorem egW_succ (c : ℝ) {n : ℕ} (hn : 0 < n) : egW c (n + 1) - egW c n = 1 / ((n : ℝ) + 1) - log (1 + (n : ℝ)⁻¹) + egR c ((n : ℝ) + 1) - egR c n := by
  have hx : (0 : ℝ) < n := by exact_mod_cast hn
  have e : log (1 + (n : ℝ)⁻¹) = log ((n : ℝ) + 1) - log n := by
    rw [← log_div (by linarith) hx.ne']; congr 1; field_simp
  unfold egW
  rw [harmonic_succ, e]
  push_cast
  ring

theorem egW_tendsto (c : ℝ) : Tendsto (egW c) atTop (𝓝 eulerMascheroniConstant) := by
  have h0 : Tendsto (fun n : ℕ => egR c n) atTop (𝓝 0) := by
    have hp : ∀ (d : ℝ) (k : ℕ), k ≠ 0 → Tendsto (fun n : ℕ => d / (n : ℝ) ^ k) atTop (𝓝 0) := fun d k hk =>
      tendsto_const_nhds.div_atTop ((tendsto_pow_atTop hk).comp tendsto_natCast_atTop_atTop)
    have := (((hp (-(1 / 2)) 1 (by decide)).add (hp (1 / 12) 2 (by decide))).sub (hp (1 / 120) 4 (by decide))).add (hp c 6 (by decide))
    simp only [pow_one, add_zero, sub_zero] at this
    exact this
  have := tendsto_harmonic_sub_log.add h0
  rw [add_zero] at this
  exact this

theorem eg_le {n : ℕ} (hn : 0 < n) : eulerMascheroniConstant ≤ egW (1 / 4) n := by
  refine le_of_tendsto (egW_tendsto (1 / 4)) (eventually_atTop.2 ⟨n, fun m hm => ?_⟩)
  induction m, hm using Nat.le_induction with
  | base => exact le_refl _
  | succ m hm ih =>
    have := egW_succ (1 / 4) (show 0 < m by omega)
    have h2 := eg_up (x := (m : ℝ)) (by exact_mod_cast (show 0 < m by omega))
    linarith

theorem eg_ge {n : ℕ} (hn : 0 < n) : egW (-(1 / 4)) n ≤ eulerMascheroniConstant := by
  refine ge_of_tendsto (egW_tendsto (-(1 / 4))) (eventually_atTop.2 ⟨n, fun m hm => ?_⟩)
  induction m, hm using Nat.le_induction with
  | base => exact le_refl _
  | succ m hm ih =>
    have := egW_succ (-(1 / 4)) (show 0 < m by omega)
    have h2 := eg_lo (x := (m : ℝ)) (by exact_mod_cast (show 0 < m by omega))
    linarith

/-- `Σ_{k<n} ⌊D / (k+1)⌋` -/
def harmFix (D : ℕ) : ℕ → ℕ
  | 0 => 0
  | n + 1 => harmFix D n + D / (n + 1)

theorem harmFix_spec (D n : ℕ) : (harmFix D n : ℝ) ≤ D * (harmonic n : ℝ) ∧ (D : ℝ) * (harmonic n : ℝ) ≤ harmFix D n + n := by
  induction n with
  | zero => simp [harmFix]
  | succ n ih =>
    have hn : (0 : ℝ) < (n : ℝ) + 1 := by positivity
    have h1 : ((D / (n + 1) : ℕ) : ℝ) ≤ D / ((n : ℝ) + 1) := by
      have := Nat.cast_div_le (α := ℝ) (m := D) (n := n + 1)
      push_cast at this; exact this
    have h2 : (D : ℝ) / ((n : ℝ) + 1) ≤ ((D / (n + 1) : ℕ) : ℝ) + 1 := by
      rw [div_le_iff₀ hn]
      have := (Nat.lt_div_mul_add (a := D) (b := n + 1) (by omega)).le
      have h : (D : ℝ) ≤ ((D / (n + 1) : ℕ) : ℝ) * ((n : ℝ) + 1) + ((n : ℝ) + 1) := by exact_mod_cast this
      linarith
    rw [harmonic_succ]
    have e : (D : ℝ) * ((harmonic n + ((n + 1 : ℕ) : ℚ)⁻¹ : ℚ) : ℝ) = D * (harmonic n : ℝ) + D / ((n : ℝ) + 1) := by
      push_cast; ring
    rw [e]
    simp only [harmFix]
    push_cast
    constructor <;> linarith [ih.1, ih.2]

theorem harmFix_val : harmFix (10 ^ 26) 2048 = 820207877181771681276095101 := by decide +kernel

/-- the Euler–Mascheroni constant to 20 digits -/
theorem egamma_digits : (0.57721566490153286060 : ℝ) ≤ eulerMascheroniConstant ∧ eulerMascheroniConstant ≤ 0.57721566490153286062 := by
  have h1 := eg_le (n := 2048) (by decide)
  have h2 := eg_ge (n := 2048) (by decide)
  obtain ⟨a1, a2⟩ := harmFix_spec (10 ^ 26) 2048
  rw [harmFix_val] at a1 a2
  obtain ⟨l1, l2⟩ := ln2_digits
  have e : log ((2048 : ℕ) : ℝ) = 11 * log 2 := by
    rw [show ((2048 : ℕ) : ℝ) = 2 ^ 11 by norm_num, log_pow]; norm_num
  unfold egW egR at h1 h2
  rw [e] at h1 h2
  generalize (harmonic 2048 : ℝ) = H at *
  norm_num at h1 h2 a1 a2 l1 l2 ⊢
  constructor <;> linarith

end Verif
