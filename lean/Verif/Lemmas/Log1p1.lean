import Verif.Lemmas.LogH
import Verif.Lemmas.Cbrt
import Verif.Lemmas.Asin5
import Verif.Model.Log1p

/-!
# log1p of double: constants, the inverse hyperbolic tangent series and the rounding errors of the kernel
-/

namespace Verif
open Fmt Real

theorem val_l1pD1 : binary64.Finite CC.l1pD1 ∧ binary64.val CC.l1pD1 = 6004799503160661 / 2 ^ 53 := by
  refine ⟨by decide +kernel, ?_⟩
  rw [lit64 false 6004799503160661 53 (by decide +kernel) (by decide +kernel) (by decide +kernel) (by decide +kernel)]
  norm_num [sg]
theorem val_l1pD2 : binary64.Finite CC.l1pD2 ∧ binary64.val CC.l1pD2 = 7205759403792793 / 2 ^ 54 := by
  refine ⟨by decide +kernel, ?_⟩
  rw [lit64 false 7205759403792793 54 (by decide +kernel) (by decide +kernel) (by decide +kernel) (by decide +kernel)]
  norm_num [sg]
theorem val_l1pD3 : binary64.Finite CC.l1pD3 ∧ binary64.val CC.l1pD3 = 5146971002709138 / 2 ^ 54 := by
  refine ⟨by decide +kernel, ?_⟩
  rw [lit64 false 5146971002709138 54 (by decide +kernel) (by decide +kernel) (by decide +kernel) (by decide +kernel)]
  norm_num [sg]
theorem val_l1pD4 : binary64.Finite CC.l1pD4 ∧ binary64.val CC.l1pD4 = 8006399337547478 / 2 ^ 55 := by
  refine ⟨by decide +kernel, ?_⟩
  rw [lit64 false 8006399337547478 55 (by decide +kernel) (by decide +kernel) (by decide +kernel) (by decide +kernel)]
  norm_num [sg]
theorem val_l1pD5 : binary64.Finite CC.l1pD5 ∧ binary64.val CC.l1pD5 = 6550690367081059 / 2 ^ 55 := by
  refine ⟨by decide +kernel, ?_⟩
  rw [lit64 false 6550690367081059 55 (by decide +kernel) (by decide +kernel) (by decide +kernel) (by decide +kernel)]
  norm_num [sg]
theorem val_l1pD6 : binary64.Finite CC.l1pD6 ∧ binary64.val CC.l1pD6 = 5542891849056110 / 2 ^ 55 := by
  refine ⟨by decide +kernel, ?_⟩
  rw [lit64 false 5542891849056110 55 (by decide +kernel) (by decide +kernel) (by decide +kernel) (by decide +kernel)]
  norm_num [sg]
theorem val_l1pD7 : binary64.Finite CC.l1pD7 ∧ binary64.val CC.l1pD7 = 4803839602528878 / 2 ^ 55 := by
  refine ⟨by decide +kernel, ?_⟩
  rw [lit64 false 4803839602528878 55 (by decide +kernel) (by decide +kernel) (by decide +kernel) (by decide +kernel)]
  norm_num [sg]
theorem val_l1pFhi : binary64.Finite CC.l1pFhi ∧ binary64.val CC.l1pFhi = 6243314785320960 / 2 ^ 53 := by
  refine ⟨by decide +kernel, ?_⟩
  rw [lit64 false 6243314785320960 53 (by decide +kernel) (by decide +kernel) (by decide +kernel) (by decide +kernel)]
  norm_num [sg]
theorem val_l1pFlo : binary64.Finite CC.l1pFlo ∧ binary64.val CC.l1pFlo = 4605171308953600 / 2 ^ 81 := by
  refine ⟨by decide +kernel, ?_⟩
  rw [lit64 false 4605171308953600 81 (by decide +kernel) (by decide +kernel) (by decide +kernel) (by decide +kernel)]
  norm_num [sg]
theorem val_l1pF1 : binary64.Finite CC.l1pF1 ∧ binary64.val CC.l1pF1 = 6004799682117632 / 2 ^ 53 := by
  refine ⟨by decide +kernel, ?_⟩
  rw [lit64 false 6004799682117632 53 (by decide +kernel) (by decide +kernel) (by decide +kernel) (by decide +kernel)]
  norm_num [sg]
theorem val_l1pF2 : binary64.Finite CC.l1pF2 ∧ binary64.val CC.l1pF2 = 7205759511166976 / 2 ^ 54 := by
  refine ⟨by decide +kernel, ?_⟩
  rw [lit64 false 7205759511166976 54 (by decide +kernel) (by decide +kernel) (by decide +kernel) (by decide +kernel)]
  norm_num [sg]
theorem val_l1pF3 : binary64.Finite CC.l1pF3 ∧ binary64.val CC.l1pF3 = 5146971232796672 / 2 ^ 54 := by
  refine ⟨by decide +kernel, ?_⟩
  rw [lit64 false 5146971232796672 54 (by decide +kernel) (by decide +kernel) (by decide +kernel) (by decide +kernel)]
  norm_num [sg]
theorem val_l1pF4 : binary64.Finite CC.l1pF4 ∧ binary64.val CC.l1pF4 = 8736983534796800 / 2 ^ 55 := by
  refine ⟨by decide +kernel, ?_⟩
  rw [lit64 false 8736983534796800 55 (by decide +kernel) (by decide +kernel) (by decide +kernel) (by decide +kernel)]
  norm_num [sg]

/-- tail of the series of `log (1 + s) - log (1 - s)` -/
theorem atanh_tail {s : ℝ} (h : |s| < 1) (N : ℕ) :
    |log (1 + s) - log (1 - s) - ∑ k ∈ Finset.range N, 2 * (1 / (2 * (k : ℝ) + 1)) * s ^ (2 * k + 1)| ≤ 2 / (2 * N + 1) * |s| ^ (2 * N + 1) / (1 - s ^ 2) := by
  have H := hasSum_log_sub_log_of_abs_lt_one h
  have h2 : s ^ 2 < 1 := by rw [← sq_abs]; nlinarith [abs_nonneg s]
  have t := (hasSum_nat_add_iff' N).2 H
  have g := (hasSum_geometric_of_lt_one (sq_nonneg s) h2).mul_left (2 / (2 * (N : ℝ) + 1) * |s| ^ (2 * N + 1))
  rw [← div_eq_mul_inv] at g
  rw [← t.tsum_eq, ← Real.norm_eq_abs]
  refine tsum_of_norm_bounded g fun k => ?_
  rw [Real.norm_eq_abs, abs_mul, abs_of_pos (by positivity), abs_pow, show 2 * (k + N) + 1 = (2 * N + 1) + 2 * k by ring, pow_add, pow_mul |s| 2 k, sq_abs, ← mul_assoc]
  refine mul_le_mul_of_nonneg_right (mul_le_mul_of_nonneg_right ?_ (by positivity)) (by positivity)
  push_cast
  rw [← mul_div_assoc, mul_one]
  exact div_le_div_of_nonneg_left (by norm_num) (by positivity) (by linarith [(Nat.cast_nonneg k : (0 : ℝ) ≤ k)])

/-- `log (1 + F)` through `S = F / (2 + F)` -/
theorem log1p_atanh {F : ℝ} (h : -1 < F) : log (1 + F / (2 + F)) - log (1 - F / (2 + F)) = log (1 + F) := by
  have h2 : 0 < 2 + F := by linarith
  have e1 : 1 + F / (2 + F) = 2 * (1 + F) / (2 + F) := by field_simp; ring
  have e2 : 1 - F / (2 + F) = 2 / (2 + F) := by field_simp; ring
  rw [e1, e2, log_div (by nlinarith) (by linarith), log_div (by norm_num) (by linarith), log_mul (by norm_num) (by linarith)]
  ring

/-- the polynomial of the double kernel as a function of `Z = S²` -/
noncomputable def l1pP (Z : ℝ) : ℝ :=
  Z * (6004799503160661 / 2 ^ 53 + Z * Z * (5146971002709138 / 2 ^ 54 + Z * Z * (6550690367081059 / 2 ^ 55 + Z * Z * (4803839602528878 / 2 ^ 55)))) +
    Z * Z * (7205759403792793 / 2 ^ 54 + Z * Z * (8006399337547478 / 2 ^ 55 + Z * Z * (5542891849056110 / 2 ^ 55)))

/-- the polynomial is the truncated series up to the rounding of its coefficients -/
theorem l1pP_near {Z : ℝ} (h0 : 0 ≤ Z) (h1 : Z ≤ 3 / 100) :
    |l1pP Z - (2 / 3 * Z + 2 / 5 * Z ^ 2 + 2 / 7 * Z ^ 3 + 2 / 9 * Z ^ 4 + 2 / 11 * Z ^ 5 + 2 / 13 * Z ^ 6 + 2 / 15 * Z ^ 7)| ≤ Z / 2 ^ 54 := by
  have p : ∀ k : ℕ, 0 ≤ Z ^ (k + 1) ∧ Z ^ (k + 1) ≤ Z * (3 / 100) ^ k := fun k =>
    ⟨by positivity, by rw [pow_succ, mul_comm]; exact mul_le_mul_of_nonneg_left (pow_le_pow_left₀ h0 h1 k) h0⟩
  have p2 := p 1
  have p3 := p 2
  have p4 := p 3
  have p5 := p 4
  have p6 := p 5
  have p7 := p 6
  unfold l1pP
  norm_num at p2 p3 p4 p5 p6 p7
  rw [abs_le]
  constructor <;> ring_nf <;> linarith [p2.1, p2.2, p3.1, p3.2, p4.1, p4.2, p5.1, p5.2, p6.1, p6.2, p7.1, p7.2]

/-- the exact value of the kernel against the logarithm: the rounding of the coefficients and the first omitted term of the series -/
theorem l1pP_log {F S : ℝ} (hS : S = F / (2 + F)) (h : -1 < F) (hs : |S| ≤ 173 / 1000) :
    |F - F * F / 2 + S * (F * F / 2 + l1pP (S * S)) - log (1 + F)| ≤ |S| * (S * S) / 2 ^ 54 + |S| ^ 17 * (1214 / 10000) := by
  have h2 : 0 < 2 + F := by linarith
  have t := atanh_tail (s := S) (by linarith) 8
  have hz : S * S ≤ 3 / 100 := by rw [← abs_mul_abs_self]; nlinarith [abs_nonneg S]
  have n := l1pP_near (mul_self_nonneg S) hz
  rw [hS, log1p_atanh h, ← hS] at t
  have e : F - F * F / 2 + S * (F * F / 2 + l1pP (S * S)) - log (1 + F) =
      S * (l1pP (S * S) - (2 / 3 * (S * S) + 2 / 5 * (S * S) ^ 2 + 2 / 7 * (S * S) ^ 3 + 2 / 9 * (S * S) ^ 4 + 2 / 11 * (S * S) ^ 5 + 2 / 13 * (S * S) ^ 6 + 2 / 15 * (S * S) ^ 7))
       - (log (1 + F) - ∑ k ∈ Finset.range 8, 2 * (1 / (2 * (k : ℝ) + 1)) * S ^ (2 * k + 1)) := by
    have e1 : F - F * F / 2 + S * (F * F / 2) = 2 * S := by rw [hS]; field_simp; ring
    simp only [Finset.sum_range_succ, Finset.sum_range_zero]
    push_cast
    linear_combination e1
  rw [e]
  refine (abs_sub _ _).trans (add_le_add ?_ (t.trans ?_))
  · rw [abs_mul, mul_div_assoc]; exact mul_le_mul_of_nonneg_left n (abs_nonneg _)
  · have hz' : S ^ 2 ≤ 299290 / 10000000 := by rw [← sq_abs]; nlinarith [abs_nonneg S]
    rw [div_le_iff₀ (by linarith)]
    have h17 : 0 ≤ |S| ^ 17 := by positivity
    push_cast
    norm_num
    nlinarith

end Verif
