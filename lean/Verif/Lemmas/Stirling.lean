import Mathlib.Analysis.SpecialFunctions.Stirling
import Mathlib.Analysis.SpecialFunctions.Gamma.BohrMollerup
import Mathlib.Analysis.SpecialFunctions.Complex.LogBounds

/-!
# Stirling's formula for the Gamma function of a positive real: `0 ≤ log Γ(x) - ((x - 1/2) log x - x + log(2π)/2) ≤ 1/(12 x)`
-/

namespace Verif
open Real Filter Topology

/-- the remainder of Stirling's formula -/
noncomputable def stir (x : ℝ) : ℝ := log (Gamma x) - ((x - 1 / 2) * log x - x + log (2 * π) / 2)

theorem log_Gamma_succ {x : ℝ} (hx : 0 < x) : log (Gamma (x + 1)) = log (Gamma x) + log x := by
  rw [Gamma_add_one hx.ne', log_mul hx.ne' (Gamma_pos_of_pos hx).ne']; ring

theorem stir_diff {x : ℝ} (hx : 0 < x) : stir x - stir (x + 1) = (x + 1 / 2) * log (1 + x⁻¹) - 1 := by
  have e : log (1 + x⁻¹) = log (x + 1) - log x := by
    rw [← log_div (by linarith) hx.ne']; congr 1; field_simp
  unfold stir
  rw [log_Gamma_succ hx, e]; ring

theorem stir_diff_bounds {x : ℝ} (hx : 0 < x) : 0 ≤ stir x - stir (x + 1) ∧ stir x - stir (x + 1) ≤ 1 / 12 * (1 / x - 1 / (x + 1)) := by
  rw [stir_diff hx]
  have h := (hasSum_log_one_add_inv hx).mul_left (x + 1 / 2)
  set t := 1 / (2 * x + 1) with ht
  have t0 : 0 < t := by positivity
  have t1 : t < 1 := by rw [ht, div_lt_one (by linarith)]; linarith
  have hx2 : x + 1 / 2 = 1 / (2 * t) := by rw [ht]; field_simp
  have h' : HasSum (fun k : ℕ => 1 / (2 * (k : ℝ) + 1) * (t ^ 2) ^ k) ((x + 1 / 2) * log (1 + x⁻¹)) := by
    refine h.congr_fun ?_ |> id
    intro k
    rw [hx2, pow_succ t (2 * k), pow_mul]
    field_simp
  have h0 := (hasSum_nat_add_iff' (f := fun k : ℕ => 1 / (2 * (k : ℝ) + 1) * (t ^ 2) ^ k) 1).2 h'
  simp at h0
  rw [← one_div] at h0
  have q0 : 0 ≤ t ^ 2 := sq_nonneg _
  have q1 : t ^ 2 < 1 := by nlinarith
  have hg := (hasSum_geometric_of_lt_one q0 q1).mul_left (1 / 3 * t ^ 2)
  constructor
  · refine h0.nonneg fun k => ?_
    positivity
  · have : (x + 1 / 2) * log (1 + x⁻¹) - 1 ≤ 1 / 3 * t ^ 2 * (1 - t ^ 2)⁻¹ := by
      refine hasSum_le (fun k => ?_) h0 hg
      have : (2 * ((k : ℝ) + 1) + 1)⁻¹ ≤ 1 / 3 := by
        rw [one_div]
        refine inv_anti₀ (by norm_num) ?_
        have := Nat.cast_nonneg (α := ℝ) k
        linarith
      rw [pow_succ]
      have h3 : 0 ≤ (t ^ 2) ^ k * t ^ 2 := by positivity
      calc _ ≤ 1 / 3 * ((t ^ 2) ^ k * t ^ 2) := mul_le_mul_of_nonneg_right this h3
        _ = _ := by ring
    refine this.trans (le_of_eq ?_)
    have e : 1 - t ^ 2 = 4 * x * (x + 1) * t ^ 2 := by
      rw [ht]; field_simp; ring
    rw [e]
    have : t ^ 2 ≠ 0 := by positivity
    have : x + 1 ≠ 0 := by linarith
    field_simp
    ring

theorem log_Gamma_add (x : ℝ) (hx : 0 < x) (n : ℕ) : log (Gamma (x + n)) = log (Gamma x) + ∑ m ∈ Finset.range n, log (x + m) := by
  induction n with
  | zero => simp
  | succ n ih =>
    rw [Finset.sum_range_succ, ← add_assoc, ← ih, Nat.cast_succ, ← add_assoc, log_Gamma_succ (by positivity)]

theorem stir_tendsto {x : ℝ} (hx : 0 < x) : Tendsto (fun n : ℕ => stir (x + (n + 1 : ℕ))) atTop (𝓝 0) := by
  have l1 : Tendsto (BohrMollerup.logGammaSeq x) atTop (𝓝 (log (Gamma x) - log (Gamma 1))) :=
    BohrMollerup.tendsto_logGammaSeq convexOn_log_Gamma (fun {y} hy => by simpa using log_Gamma_succ hy) hx
  rw [Gamma_one, log_one, sub_zero] at l1
  have l2 : Tendsto (fun n => log (Stirling.stirlingSeq n)) atTop (𝓝 (log √π)) := by
    exact Stirling.tendsto_stirlingSeq_sqrt_pi.log (by positivity)
  have l3 : Tendsto (fun n : ℕ => (n : ℝ) * log (1 + (x + 1) / n)) atTop (𝓝 (x + 1)) :=
    (tendsto_mul_log_one_add_div_atTop (x + 1)).comp tendsto_natCast_atTop_atTop
  have l4 : Tendsto (fun n : ℕ => log (1 + (x + 1) / (n : ℝ))) atTop (𝓝 0) := by
    have : Tendsto (fun n : ℕ => 1 + (x + 1) / (n : ℝ)) atTop (𝓝 (1 + 0)) := tendsto_const_nhds.add (tendsto_const_div_atTop_nhds_zero_nat _)
    simpa using this.log (by norm_num)
  have l5 := (((tendsto_const_nhds (x := log (Gamma x))).sub l1).add (l2.sub (tendsto_const_nhds (x := log √π)))).add
    ((tendsto_const_nhds (x := x + 1)).sub (l3.add (l4.const_mul (x + 1 / 2))))
  have e0 : log (Gamma x) - log (Gamma x) + (log √π - log √π) + (x + 1 - (x + 1 + (x + 1 / 2) * 0)) = 0 := by ring
  rw [e0] at l5
  refine l5.congr' ?_
  filter_upwards [eventually_ge_atTop 1] with n hn
  have hn' : (0 : ℝ) < n := by exact_mod_cast hn
  have s := Stirling.log_stirlingSeq_formula n
  rw [log_mul (by norm_num) hn'.ne', log_div hn'.ne' (exp_pos _).ne', log_exp] at s
  have e1 : log (1 + (x + 1) / (n : ℝ)) = log (x + (n + 1 : ℕ)) - log n := by
    rw [← log_div (by positivity) hn'.ne']; congr 1; push_cast; field_simp; ring
  have e2 : log √π = log (2 * π) / 2 - log 2 / 2 := by
    rw [log_mul (by norm_num) pi_ne_zero, log_sqrt pi_pos.le]; ring
  unfold stir BohrMollerup.logGammaSeq
  rw [log_Gamma_add x hx (n + 1), e1, e2, s]
  push_cast
  ring

theorem stir_bounds {x : ℝ} (hx : 0 < x) : 0 ≤ stir x ∧ stir x ≤ 1 / (12 * x) := by
  have key : ∀ n : ℕ, 0 ≤ stir x - stir (x + n) ∧ stir x - stir (x + n) ≤ 1 / 12 * (1 / x - 1 / (x + n)) := by
    intro n
    induction n with
    | zero => simp
    | succ n ih =>
      have h := stir_diff_bounds (x := x + n) (by positivity)
      rw [Nat.cast_succ, ← add_assoc]
      constructor <;> linarith [h.1, h.2, ih.1, ih.2]
  have l := (tendsto_const_nhds (x := stir x)).sub (stir_tendsto hx)
  rw [sub_zero] at l
  constructor
  · exact ge_of_tendsto' l fun n => (key (n + 1)).1
  · refine le_of_tendsto' l fun n => (key (n + 1)).2.trans ?_
    have : 0 ≤ 1 / (x + (n + 1 : ℕ)) := by positivity
    have e : 1 / (12 * x) = 1 / 12 * (1 / x) := by field_simp
    rw [e]; linarith

end Verif
