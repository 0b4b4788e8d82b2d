import Mathlib.Analysis.SpecialFunctions.Trigonometric.InverseDeriv
import Mathlib.Analysis.SpecialFunctions.Sqrt
import Mathlib.Analysis.Calculus.MeanValue
import Mathlib.Tactic.FieldSimp
import Verif.Lemmas.PolyBound

/-!
# The Taylor polynomials of arcsine, with remainder
-/

namespace Verif
open Real

/-- coefficients of `(1 - s)^(-1/2)` -/
noncomputable def bq : ℕ → ℝ
  | 0 => 1
  | n + 1 => bq n * (2 * n + 1) / (2 * n + 2)

theorem bq_bound (n : ℕ) : 0 < bq n ∧ bq n ≤ 1 := by
  induction n with
  | zero => simp [bq]
  | succ n ih =>
    simp only [bq]
    have h : (0 : ℝ) < 2 * n + 2 := by positivity
    constructor
    · have := ih.1; positivity
    · rw [div_le_one h]
      have := mul_le_mul_of_nonneg_right ih.2 (show (0 : ℝ) ≤ 2 * n + 1 by positivity)
      linarith

/-- Taylor polynomial of `(1 - x²)^(-1/2)` -/
noncomputable def hq (N : ℕ) (x : ℝ) : ℝ := ∑ n ∈ Finset.range (N + 1), bq n * x ^ (2 * n)
/-- its derivative -/
noncomputable def hq' (N : ℕ) (x : ℝ) : ℝ := ∑ n ∈ Finset.range (N + 1), bq n * ((2 * n : ℕ) * x ^ (2 * n - 1))
/-- Taylor polynomial of arcsine -/
noncomputable def Tq (N : ℕ) (x : ℝ) : ℝ := ∑ n ∈ Finset.range (N + 1), bq n / (2 * n + 1) * x ^ (2 * n + 1)

theorem hasDeriv_hq (N : ℕ) (x : ℝ) : HasDerivAt (hq N) (hq' N x) x := by
  unfold hq hq'
  refine HasDerivAt.fun_sum fun n _ => ?_
  exact (hasDerivAt_pow (2 * n) x).const_mul _

theorem hasDeriv_Tq (N : ℕ) (x : ℝ) : HasDerivAt (Tq N) (hq N x) x := by
  unfold hq Tq
  refine HasDerivAt.fun_sum fun n _ => ?_
  have h := (hasDerivAt_pow (2 * n + 1) x).const_mul (bq n / (2 * n + 1))
  refine HasDerivAt.congr_deriv h ?_
  have : (2 * (n : ℝ) + 1) ≠ 0 := by positivity
  push_cast
  field_simp

/-- the differential equation of the truncated series -/
theorem hq_ode (N : ℕ) (x : ℝ) : (1 - x ^ 2) * hq' N x - x * hq N x = -((2 * N + 1) * bq N * x ^ (2 * N + 1)) := by
  induction N with
  | zero => simp [hq, hq', bq]
  | succ N ih =>
    have e1 : hq (N + 1) x = hq N x + bq (N + 1) * x ^ (2 * (N + 1)) := by unfold hq; rw [Finset.sum_range_succ]
    have e2 : hq' (N + 1) x = hq' N x + bq (N + 1) * ((2 * (N + 1) : ℕ) * x ^ (2 * (N + 1) - 1)) := by unfold hq'; rw [Finset.sum_range_succ]
    rw [e1, e2]
    have e3 : bq (N + 1) * (2 * N + 2) = bq N * (2 * N + 1) := by
      simp only [bq]
      have : (2 * (N : ℝ) + 2) ≠ 0 := by positivity
      field_simp
    have e4 : 2 * (N + 1) - 1 = 2 * N + 1 := by omega
    rw [e4]
    push_cast
    have : (1 - x ^ 2) * (hq' N x + bq (N + 1) * (2 * (N + 1) * x ^ (2 * N + 1))) - x * (hq N x + bq (N + 1) * x ^ (2 * (N + 1)))
        = ((1 - x ^ 2) * hq' N x - x * hq N x) + (bq (N + 1) * (2 * N + 2)) * x ^ (2 * N + 1) - (2 * N + 3) * bq (N + 1) * x ^ (2 * N + 3) := by ring
    rw [this, ih, e3]
    ring

theorem sqrt_ge_of_half {x : ℝ} (h0 : 0 ≤ x) (h1 : x ≤ 1 / 2) : 3 / 4 ≤ √(1 - x ^ 2) := by
  apply Real.le_sqrt_of_sq_le; nlinarith

/-- `h_N(x) sqrt(1 - x²)` stays close to 1 -/
theorem hq_near (N : ℕ) {x : ℝ} (h0 : 0 ≤ x) (h1 : x ≤ 1 / 2) : |hq N x * √(1 - x ^ 2) - 1| ≤ 4 / 3 * (2 * N + 1) * x ^ (2 * N + 2) := by
  have hder : ∀ y ∈ Set.Icc 0 x, HasDerivWithinAt (fun y => hq N y * √(1 - y ^ 2)) (-((2 * N + 1) * bq N * y ^ (2 * N + 1)) / √(1 - y ^ 2)) (Set.Icc 0 x) y := by
    intro y hy
    have hy1 : y ≤ 1 / 2 := le_trans hy.2 h1
    have hs := sqrt_ge_of_half hy.1 hy1
    have hne : (1 - y ^ 2) ≠ 0 := by have := hy.1; nlinarith
    have h2 : HasDerivAt (fun y : ℝ => 1 - y ^ 2) (-(2 * y)) y := by
      have := (hasDerivAt_pow 2 y).const_sub 1
      simpa using this
    have h3 := (hasDeriv_hq N y).mul (h2.sqrt hne)
    refine HasDerivAt.hasDerivWithinAt ?_
    refine HasDerivAt.congr_deriv h3 ?_
    have hsq : √(1 - y ^ 2) * √(1 - y ^ 2) = 1 - y ^ 2 := Real.mul_self_sqrt (by have := hy.1; nlinarith)
    have hs0 : √(1 - y ^ 2) ≠ 0 := by linarith
    rw [← hq_ode N y]
    field_simp
    rw [pow_two (√(1 - y ^ 2)), hsq]
    ring
  have hb : ∀ y ∈ Set.Icc 0 x, ‖-((2 * N + 1) * bq N * y ^ (2 * N + 1)) / √(1 - y ^ 2)‖ ≤ 4 / 3 * (2 * N + 1) * x ^ (2 * N + 1) := by
    intro y hy
    have hs := sqrt_ge_of_half hy.1 (le_trans hy.2 h1)
    obtain ⟨b0, b1⟩ := bq_bound N
    have hy0 := hy.1
    have hp : y ^ (2 * N + 1) ≤ x ^ (2 * N + 1) := pow_le_pow_left₀ hy.1 hy.2 _
    have hp0 : 0 ≤ y ^ (2 * N + 1) := by positivity
    rw [norm_eq_abs, abs_div, abs_neg, abs_of_nonneg (by positivity), abs_of_pos (by linarith), div_le_iff₀ (by linarith)]
    have h2 : (2 * N + 1) * bq N * y ^ (2 * N + 1) ≤ (2 * N + 1) * 1 * x ^ (2 * N + 1) := by
      apply mul_le_mul _ hp hp0 (by positivity)
      exact mul_le_mul_of_nonneg_left b1 (by positivity)
    have h3 : 4 / 3 * (2 * N + 1) * x ^ (2 * N + 1) * (3 / 4) ≤ 4 / 3 * (2 * N + 1) * x ^ (2 * N + 1) * √(1 - y ^ 2) :=
      mul_le_mul_of_nonneg_left hs (by positivity)
    linarith
  have h := Convex.norm_image_sub_le_of_norm_hasDerivWithin_le hder hb (convex_Icc 0 x) (Set.left_mem_Icc.2 h0) (Set.right_mem_Icc.2 h0)
  have e0 : hq N 0 = 1 := by
    unfold hq
    rw [Finset.sum_eq_single 0]
    · simp [bq]
    · intro n _ hn; rw [zero_pow (by omega), mul_zero]
    · intro h; simp at h
  simp only [e0, norm_eq_abs, sub_zero] at h
  norm_num at h
  rw [abs_of_nonneg h0] at h
  calc _ ≤ _ := h
    _ = _ := by ring

/-- the remainder of the Taylor polynomial of arcsine on `[0, 1/2]` -/
theorem Tq_near (N : ℕ) {x : ℝ} (h0 : 0 ≤ x) (h1 : x ≤ 1 / 2) : |Tq N x - arcsin x| ≤ 16 / 9 * (2 * N + 1) * x ^ (2 * N + 2) * x := by
  have hder : ∀ y ∈ Set.Icc 0 x, HasDerivWithinAt (fun y => Tq N y - arcsin y) (hq N y - 1 / √(1 - y ^ 2)) (Set.Icc 0 x) y := by
    intro y hy
    have hy1 : y ≤ 1 / 2 := le_trans hy.2 h1
    have hy0 := hy.1
    exact ((hasDeriv_Tq N y).sub (hasDerivAt_arcsin (by linarith) (by linarith))).hasDerivWithinAt
  have hb : ∀ y ∈ Set.Icc 0 x, ‖hq N y - 1 / √(1 - y ^ 2)‖ ≤ 16 / 9 * (2 * N + 1) * x ^ (2 * N + 2) := by
    intro y hy
    have hy1 : y ≤ 1 / 2 := le_trans hy.2 h1
    have hs := sqrt_ge_of_half hy.1 hy1
    have hs0 : √(1 - y ^ 2) ≠ 0 := by linarith
    have e : hq N y - 1 / √(1 - y ^ 2) = (hq N y * √(1 - y ^ 2) - 1) / √(1 - y ^ 2) := by field_simp
    have hp : y ^ (2 * N + 2) ≤ x ^ (2 * N + 2) := pow_le_pow_left₀ hy.1 hy.2 _
    rw [norm_eq_abs, e, abs_div, abs_of_pos (show 0 < √(1 - y ^ 2) by linarith), div_le_iff₀ (by linarith)]
    have h2 := hq_near N hy.1 hy1
    have h3 : 4 / 3 * (2 * (N : ℝ) + 1) * y ^ (2 * N + 2) ≤ 4 / 3 * (2 * N + 1) * x ^ (2 * N + 2) := mul_le_mul_of_nonneg_left hp (by positivity)
    have h4 : 16 / 9 * (2 * (N : ℝ) + 1) * x ^ (2 * N + 2) * (3 / 4) ≤ 16 / 9 * (2 * N + 1) * x ^ (2 * N + 2) * √(1 - y ^ 2) :=
      mul_le_mul_of_nonneg_left hs (by positivity)
    linarith
  have h := Convex.norm_image_sub_le_of_norm_hasDerivWithin_le hder hb (convex_Icc 0 x) (Set.left_mem_Icc.2 h0) (Set.right_mem_Icc.2 h0)
  have e0 : Tq N 0 = 0 := by
    unfold Tq
    exact Finset.sum_eq_zero fun n _ => by rw [zero_pow (by omega), mul_zero]
  simp only [e0, arcsin_zero, norm_eq_abs, sub_zero] at h
  rwa [abs_of_nonneg h0] at h

end Verif
