import Mathlib.Analysis.SpecialFunctions.Complex.Arctan
import Mathlib.Analysis.SpecificLimits.Normed
import Mathlib.Tactic.Linarith
import Mathlib.Tactic.Positivity
import Mathlib.Tactic.FieldSimp

/-!
# Bounds on `π` to any precision: Machin's formula in fixed point
-/

namespace Verif
open Real

/-- `⌊D / ((2k+1) n^(2k+1))⌋` with alternating signs, `k < K` -/
def atanFix (D n : ℕ) : ℕ → ℤ
  | 0 => 0
  | K + 1 => atanFix D n K + (if K % 2 = 0 then 1 else -1) * ((D / ((2 * K + 1) * n ^ (2 * K + 1)) : ℕ) : ℤ)

theorem atanFix_partial (D n : ℕ) (K : ℕ) :
    |(D : ℝ) * ∑ k ∈ Finset.range K, (-1) ^ k * (((n : ℝ)⁻¹) ^ (2 * k + 1) / (2 * k + 1 : ℕ)) - (atanFix D n K : ℝ)| ≤ K := by
  induction K with
  | zero => simp [atanFix]
  | succ K ih =>
    rw [Finset.sum_range_succ, mul_add]
    set q := (2 * K + 1) * n ^ (2 * K + 1) with hq
    have hun : atanFix D n (K + 1) = atanFix D n K + (if K % 2 = 0 then 1 else -1) * ((D / q : ℕ) : ℤ) := rfl
    have e1 : (D : ℝ) * ((-1) ^ K * (((n : ℝ)⁻¹) ^ (2 * K + 1) / (2 * (K : ℝ) + 1))) = (-1) ^ K * ((D : ℝ) / q) := by
      rw [hq]; push_cast
      rw [inv_pow, div_eq_mul_inv, div_eq_mul_inv, mul_inv]
      ring
    have e2 : ((if K % 2 = 0 then (1 : ℤ) else -1 : ℤ) : ℝ) = (-1) ^ K := by
      by_cases h : K % 2 = 0
      · rw [if_pos h, Even.neg_one_pow (Nat.even_iff.2 h)]; simp
      · rw [if_neg h, Odd.neg_one_pow (Nat.odd_iff.2 (by omega))]; simp
    have e3 : |(D : ℝ) / q - ((D / q : ℕ) : ℝ)| ≤ 1 := by
      have h1 : ((D / q : ℕ) : ℝ) ≤ (D : ℝ) / q := Nat.cast_div_le
      have h2 : (D : ℝ) / q < ((D / q : ℕ) : ℝ) + 1 := by
        rcases Nat.eq_zero_or_pos q with h | h
        · rw [h]; simp
        · rw [div_lt_iff₀ (by exact_mod_cast h)]
          have := Nat.lt_mul_div_succ D h
          rw [mul_comm] at this
          exact_mod_cast this
      rw [abs_le]; constructor <;> linarith
    have e4 : |((-1 : ℝ) ^ K) * ((D : ℝ) / q - ((D / q : ℕ) : ℝ))| ≤ 1 := by
      rw [abs_mul, abs_pow, abs_neg, abs_one, one_pow, one_mul]; exact e3
    rw [hun, Int.cast_add, Int.cast_mul, e2, Int.cast_natCast]
    push_cast at ih ⊢
    rw [e1]
    calc _ = |((D : ℝ) * ∑ k ∈ Finset.range K, (-1) ^ k * (((n : ℝ)⁻¹) ^ (2 * k + 1) / (2 * (k : ℝ) + 1)) - (atanFix D n K : ℝ)) +
          ((-1 : ℝ) ^ K) * ((D : ℝ) / q - ((D / q : ℕ) : ℝ))| := by congr 1; ring
      _ ≤ _ := abs_add_le _ _
      _ ≤ K + 1 := by linarith

theorem atanFix_spec (D n K : ℕ) (hn : 2 ≤ n) : |(D : ℝ) * arctan ((n : ℝ)⁻¹) - (atanFix D n K : ℝ)| ≤ K + (D : ℝ) / (n : ℝ) ^ (2 * K + 1) := by
  have hn0 : (2 : ℝ) ≤ n := by exact_mod_cast hn
  have hx0 : (0 : ℝ) < (n : ℝ)⁻¹ := by positivity
  have hx1 : (n : ℝ)⁻¹ < 1 := by
    rw [inv_lt_one_iff₀]; right; linarith
  have hs := Real.hasSum_arctan (x := (n : ℝ)⁻¹) (by rw [Real.norm_eq_abs, abs_of_pos hx0]; exact hx1)
  set g : ℕ → ℝ := fun k => ((n : ℝ)⁻¹) ^ (2 * k + 1) / ((2 * k + 1 : ℕ) : ℝ) with hg
  have hgm : Antitone g := by
    apply antitone_nat_of_succ_le
    intro k
    simp only [hg]
    apply div_le_div₀ (by positivity) (pow_le_pow_of_le_one hx0.le hx1.le (by omega)) (by positivity)
    exact_mod_cast (by omega)
  have hgs : Summable g := by
    refine Summable.of_nonneg_of_le (fun k => by simp only [hg]; positivity) (fun k => ?_) (summable_geometric_of_lt_one hx0.le hx1)
    simp only [hg]
    calc _ ≤ ((n : ℝ)⁻¹) ^ (2 * k + 1) / 1 := by
          apply div_le_div_of_nonneg_left (by positivity) (by norm_num)
          exact_mod_cast (by omega)
      _ ≤ _ := by rw [div_one]; exact pow_le_pow_of_le_one hx0.le hx1.le (by omega)
  have hts : arctan ((n : ℝ)⁻¹) = ∑' i : ℕ, (-1) ^ i * g i := by
    rw [← hs.tsum_eq]
    congr 1; ext i; simp only [hg]; ring
  have hb := alternating_series_error_bound g hgm hgs K
  rw [← hts] at hb
  have hp := atanFix_partial D n K
  have hgK : g K ≤ 1 / (n : ℝ) ^ (2 * K + 1) := by
    simp only [hg]
    calc _ ≤ ((n : ℝ)⁻¹) ^ (2 * K + 1) / 1 := by
          apply div_le_div_of_nonneg_left (by positivity) (by norm_num)
          exact_mod_cast (by omega)
      _ = _ := by rw [div_one, inv_pow, one_div]
  calc _ = |(D : ℝ) * (arctan ((n : ℝ)⁻¹) - ∑ i ∈ Finset.range K, (-1) ^ i * g i) + ((D : ℝ) * ∑ i ∈ Finset.range K, (-1) ^ i * g i - (atanFix D n K : ℝ))| := by
        congr 1; ring
    _ ≤ _ := abs_add_le _ _
    _ ≤ (D : ℝ) / (n : ℝ) ^ (2 * K + 1) + K := by
        refine add_le_add ?_ hp
        rw [abs_mul, abs_of_nonneg (by positivity : (0 : ℝ) ≤ D)]
        calc _ ≤ (D : ℝ) * (1 / (n : ℝ) ^ (2 * K + 1)) := mul_le_mul_of_nonneg_left (hb.trans hgK) (by positivity)
          _ = _ := by rw [mul_one_div]
    _ = _ := by ring

/-- `π D / 4` to within `4 K₁ + K₂ + 2` units -/
theorem pi_fix (D K₁ K₂ : ℕ) (h1 : 4 * D ≤ 5 ^ (2 * K₁ + 1)) (h2 : D ≤ 239 ^ (2 * K₂ + 1)) :
    |(D : ℝ) * π - 4 * ((4 * atanFix D 5 K₁ - atanFix D 239 K₂ : ℤ) : ℝ)| ≤ 4 * ((4 * K₁ + K₂ + 2 : ℕ) : ℝ) := by
  have hm := Real.four_mul_arctan_inv_5_sub_arctan_inv_239
  have a1 := atanFix_spec D 5 K₁ (by norm_num)
  have a2 := atanFix_spec D 239 K₂ (by norm_num)
  have b1 : (D : ℝ) / (5 : ℝ) ^ (2 * K₁ + 1) ≤ 1 / 4 := by
    rw [div_le_iff₀ (by positivity)]
    have : (4 * D : ℝ) ≤ 5 ^ (2 * K₁ + 1) := by exact_mod_cast h1
    linarith
  have b2 : (D : ℝ) / (239 : ℝ) ^ (2 * K₂ + 1) ≤ 1 := by
    rw [div_le_iff₀ (by positivity), one_mul]; exact_mod_cast h2
  push_cast at a1 a2 ⊢
  have hpi : π = 4 * (4 * arctan 5⁻¹ - arctan 239⁻¹) := by rw [hm]; ring
  rw [hpi]
  rw [abs_le] at *
  constructor <;> nlinarith [a1.1, a1.2, a2.1, a2.2]

/-- `A/D ≤ π/4 ≤ B/D` from one kernel evaluation -/
theorem pi_bounds (D K₁ K₂ : ℕ) (A B : ℤ) (h1 : 4 * D ≤ 5 ^ (2 * K₁ + 1)) (h2 : D ≤ 239 ^ (2 * K₂ + 1))
    (hA : A + (4 * K₁ + K₂ + 2 : ℕ) ≤ 4 * atanFix D 5 K₁ - atanFix D 239 K₂) (hB : 4 * atanFix D 5 K₁ - atanFix D 239 K₂ + (4 * K₁ + K₂ + 2 : ℕ) ≤ B) :
    4 * (A : ℝ) ≤ D * π ∧ (D : ℝ) * π ≤ 4 * B := by
  have h := pi_fix D K₁ K₂ h1 h2
  have hA' : (A : ℝ) + ((4 * K₁ + K₂ + 2 : ℕ) : ℝ) ≤ ((4 * atanFix D 5 K₁ - atanFix D 239 K₂ : ℤ) : ℝ) := by exact_mod_cast hA
  have hB' : ((4 * atanFix D 5 K₁ - atanFix D 239 K₂ : ℤ) : ℝ) + ((4 * K₁ + K₂ + 2 : ℕ) : ℝ) ≤ (B : ℝ) := by exact_mod_cast hB
  rw [abs_le] at h
  constructor <;> linarith [h.1, h.2]

end Verif
