import Verif.Lemmas.Log1p2

/-!
# log1p of double: the unreduced kernel and the tiny arguments against the logarithm
-/

namespace Verif
open Fmt Real

/-- lower bound of `|log (1 + F)|` -/
theorem log1p_ge {F S : ℝ} (hS : S = F / (2 + F)) (h : -1 < F) (hs : |S| ≤ 173 / 1000) : 1979 / 1000 * |S| ≤ |log (1 + F)| := by
  have t := atanh_tail (s := S) (by linarith) 1
  rw [hS, log1p_atanh h, ← hS] at t
  have hz : S ^ 2 ≤ 299290 / 10000000 := by rw [← sq_abs]; nlinarith [abs_nonneg S]
  have b : 2 / (2 * ((1 : ℕ) : ℝ) + 1) * |S| ^ (2 * 1 + 1) / (1 - S ^ 2) ≤ 21 / 1000 * |S| := by
    rw [div_le_iff₀ (by linarith)]
    have h3 : |S| ^ 3 = |S| * S ^ 2 := by rw [← sq_abs]; ring
    norm_num
    rw [h3]
    have h4 := mul_le_mul_of_nonneg_left hz (abs_nonneg S)
    nlinarith [abs_nonneg S]
  have t' := t.trans b
  simp only [Finset.sum_range_one] at t'
  norm_num at t'
  have := abs_sub_abs_le_abs_sub (2 * S) (log (1 + F))
  rw [abs_sub_comm, abs_mul, abs_of_pos (show (0 : ℝ) < 2 by norm_num)] at this
  linarith

/-- the kernel without reduction against the logarithm -/
theorem l1p_inner (md : Mode) {f : ℕ} (hf : binary64.Finite f) {F : ℝ} (hF : binary64.val f = F) (h0 : 1 / 2 ^ 60 ≤ |F|) (h1 : -(29290 / 100000) ≤ F) (h2 : F ≤ 41429 / 100000) :
    binary64.Finite (CC.log1pKernel md 0 f 0) ∧
      |binary64.val (CC.log1pKernel md 0 f 0) - log (1 + F)| ≤ (41 / 20 * ru md + |F / (2 + F)| ^ 16 / 16) * |log (1 + F)| := by
  have hu := ru_pos md
  have hu1 := ru_ge md
  have hu2 := ru_le md
  obtain ⟨fk, ek⟩ := l1p_kernel0 md hf hF rfl h0 h1 h2
  refine ⟨fk, ?_⟩
  obtain ⟨-, hs⟩ := l1p_s md hf hF rfl h0 h1 h2
  have g1 := log1p_ge rfl (show -1 < F by linarith) (hs.trans (by norm_num))
  have g2 := l1pP_log rfl (show -1 < F by linarith) (hs.trans (by norm_num))
  have ga : |F| ≤ 241429 / 100000 * |F / (2 + F)| := by
    rw [abs_div, abs_of_pos (show 0 < 2 + F by linarith), mul_div_assoc', le_div_iff₀ (by linarith), mul_comm]
    exact mul_le_mul_of_nonneg_right (by linarith) (abs_nonneg _)
  generalize F - F * F / 2 + F / (2 + F) * (F * F / 2 + l1pP (F / (2 + F) * (F / (2 + F)))) = V at *
  generalize binary64.val (CC.log1pKernel md 0 f 0) = r at *
  generalize log (1 + F) = L at *
  generalize F / (2 + F) = S at *
  have hz : S * S ≤ 2959 / 100000 := by rw [← abs_mul_abs_self]; nlinarith [abs_nonneg S]
  rw [show |S| ^ 17 = |S| ^ 16 * |S| by ring] at g2
  have p16 : |S| ^ 16 ≤ (172 / 1000) ^ 16 := pow_le_pow_left₀ (abs_nonneg _) hs 16
  have p0 : 0 ≤ |S| ^ 16 := by positivity
  generalize |S| ^ 16 = Q at *
  generalize S * S = Z at *
  have hL := abs_nonneg L
  have hS0 := abs_nonneg S
  generalize |S| = s at *
  generalize |F| = a at *
  have m1 : s * Z / 2 ^ 54 ≤ ru md * (149 / 10000 * s) := by
    have k1 := mul_le_mul_of_nonneg_left hz hS0
    have k2 := mul_le_mul_of_nonneg_right hu1 (show 0 ≤ 149 / 10000 * s by positivity)
    norm_num at k1 k2 ⊢
    linarith
  have m2 : Q * s * (1214 / 10000) ≤ 6135 / 100000 * (Q * |L|) := by
    have := mul_le_mul_of_nonneg_left g1 p0
    have : 0 ≤ Q * |L| := by positivity
    linarith
  have m3 : Q * |L| ≤ 1 / 10 ^ 10 * |L| := mul_le_mul_of_nonneg_right (p16.trans (by norm_num)) hL
  have m4 : ru md * (149 / 10000 * s) ≤ 1 / 10 ^ 10 * s := by
    have := mul_le_mul_of_nonneg_right hu2 (show 0 ≤ 149 / 10000 * s by positivity)
    norm_num at this ⊢; linarith
  have g3 : |V - L| ≤ ru md * (149 / 10000 * s) + 6135 / 100000 * (Q * |L|) := by linarith
  have g4 : |V| ≤ |L| * (1 + 1 / 10 ^ 9) := by
    have := abs_near g3 (le_refl |L|)
    norm_num at *; linarith
  have k := mul_le_mul_of_nonneg_left (show |V| + 84 / 100 * a + 149 / 10000 * s ≤ 41 / 20 * |L| by norm_num at *; linarith) hu.le
  refine (abs_tri ek g3).trans ?_
  have : 0 ≤ Q * |L| := by positivity
  linarith

/-- tiny arguments -/
theorem l1p_tiny {X : ℝ} (h : |X| ≤ 1 / 2 ^ 53) : |X - log (1 + X)| ≤ 1 / 2 ^ 52 * |log (1 + X)| := by
  have hx := abs_le.1 h
  norm_num at hx
  have l1 := log_le_sub_one_of_pos (show 0 < 1 + X by linarith)
  have l2 := one_sub_inv_le_log_of_pos (show 0 < 1 + X by linarith)
  have e : 1 - (1 + X)⁻¹ = X / (1 + X) := by
    have : 1 + X ≠ 0 := by linarith
    field_simp; ring
  rw [e] at l2
  set L := log (1 + X)
  rw [abs_of_nonneg (by linarith)]
  have hd : X - X / (1 + X) = X * X / (1 + X) := by
    have : 1 + X ≠ 0 := by linarith
    field_simp; ring
  have k1 : X - L ≤ X * X * (1 + 1 / 2 ^ 40) := by
    have : X * X / (1 + X) ≤ X * X * (1 + 1 / 2 ^ 40) := by
      rw [div_le_iff₀ (by linarith)]
      have : 1 ≤ (1 + 1 / 2 ^ 40) * (1 + X) := by norm_num; linarith
      have := mul_le_mul_of_nonneg_left this (mul_self_nonneg X)
      linarith
    linarith
  have k2 : |X| * (1 - 1 / 2 ^ 40) ≤ |L| := by
    have := abs_sub_abs_le_abs_sub X L
    rw [abs_of_nonneg (show 0 ≤ X - L by linarith)] at this
    have k3 : X * X * (1 + 1 / 2 ^ 40) ≤ |X| * (1 / 2 ^ 40) := by
      rw [← abs_mul_abs_self, mul_assoc]
      refine mul_le_mul_of_nonneg_left ?_ (abs_nonneg _)
      norm_num at h ⊢; linarith
    linarith
  have k4 : X * X ≤ 1 / 2 ^ 53 * |X| := by
    rw [← abs_mul_abs_self]; exact mul_le_mul_of_nonneg_right h (abs_nonneg _)
  have := abs_nonneg X
  norm_num at *
  linarith

end Verif
