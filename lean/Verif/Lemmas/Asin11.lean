import Verif.Lemmas.Asin10
import Mathlib.Analysis.SpecialFunctions.Complex.Arg

/-!
# Ingredients of `atan2`
-/

namespace Verif
open Fmt Real

theorem arg_re_pos {x y : ℝ} (h : 0 < x) : Complex.arg ⟨x, y⟩ = arctan (y / x) := by
  have h1 := Complex.tan_arg ⟨x, y⟩
  have h2 := abs_lt.1 ((Complex.abs_arg_lt_pi_div_two_iff (z := ⟨x, y⟩)).2 (Or.inl h))
  have := Real.arctan_tan h2.1 h2.2
  rw [h1] at this
  exact this.symm
theorem arg_re_neg_im_nonneg {x y : ℝ} (h : x < 0) (hy : 0 ≤ y) : Complex.arg ⟨x, y⟩ = arctan (y / x) + π := by
  rcases eq_or_lt_of_le hy with rfl | hy
  · rw [zero_div, Real.arctan_zero, zero_add]; exact Complex.arg_eq_pi_iff.2 ⟨h, rfl⟩
  · have h1 := Complex.arg_neg_eq_arg_sub_pi_of_im_pos (x := ⟨x, y⟩) hy
    have h2 : -(⟨x, y⟩ : ℂ) = ⟨-x, -y⟩ := rfl
    rw [h2, arg_re_pos (by linarith), neg_div_neg_eq] at h1
    linarith
theorem arg_re_neg_im_neg {x y : ℝ} (h : x < 0) (hy : y < 0) : Complex.arg ⟨x, y⟩ = arctan (y / x) - π := by
  have h1 := Complex.arg_neg_eq_arg_add_pi_of_im_neg (x := ⟨x, y⟩) hy
  have h2 : -(⟨x, y⟩ : ℂ) = ⟨-x, -y⟩ := rfl
  rw [h2, arg_re_pos (by linarith), neg_div_neg_eq] at h1
  linarith

/-- a positive number changed by one rounding: the arctangent changes by at most 1.6 rounding units -/
theorem arctan_near_pos {u η a b : ℝ} (hu : 0 < u) (hu2 : u ≤ 1 / 2 ^ 52) (hη2 : η ≤ u * (1 / 10 ^ 9)) (hη : 0 ≤ η) (hb : 0 ≤ b) (h : |a - b| ≤ u * b + η) :
    |arctan a - arctan b| ≤ u * (16 / 10 * arctan b) + η := by
  have u1 : u ≤ 1 / 10 ^ 6 := le_trans hu2 (by norm_num)
  rcases le_or_gt b 1 with h1 | h1
  · refine le_trans (arctan_lip a b) (le_trans h ?_)
    have c1 := (arctan_cubic hb).1
    have : b ^ 3 ≤ b := by
      have := pow_le_pow_of_le_one hb h1 (show 1 ≤ 3 by norm_num)
      simpa using this
    have := mul_le_mul_of_nonneg_left (show b ≤ 16 / 10 * arctan b by linarith) hu.le
    linarith
  · have hb0 : 0 < b := by linarith
    have ha := abs_le.1 h
    have k : u * b ≤ 1 / 10 ^ 6 * b := mul_le_mul_of_nonneg_right u1 hb
    have ha1 : 999 / 1000 * b ≤ a := by norm_num at *; linarith
    have ha0 : 0 < a := by linarith
    have e1 := Real.arctan_inv_of_pos ha0
    have e2 := Real.arctan_inv_of_pos hb0
    have e3 := arctan_lip a⁻¹ b⁻¹
    rw [e1, e2, show π / 2 - arctan a - (π / 2 - arctan b) = -(arctan a - arctan b) by ring, abs_neg] at e3
    have e4 : |a⁻¹ - b⁻¹| ≤ u * (1002 / 1000) := by
      have : a⁻¹ - b⁻¹ = -(a - b) / (a * b) := by field_simp; ring
      rw [this, abs_div, abs_neg, abs_of_pos (mul_pos ha0 hb0), div_le_iff₀ (mul_pos ha0 hb0)]
      refine le_trans h ?_
      have l1 : 999 / 1000 * 1 * b ≤ a * b := mul_le_mul_of_nonneg_right (by linarith) hb
      have l2 := mul_le_mul_of_nonneg_left l1 (show 0 ≤ u * (1002 / 1000) by positivity)
      have l3 : η ≤ u * (1 / 10 ^ 9 * b) := le_trans hη2 (mul_le_mul_of_nonneg_left (by linarith) hu.le)
      have l4 : u * b + u * (1 / 10 ^ 9 * b) ≤ u * (1002 / 1000) * (999 / 1000 * 1 * b) := by
        rw [show u * (1002 / 1000) * (999 / 1000 * 1 * b) = u * (1002 / 1000 * (999 / 1000) * b) by ring, show u * b + u * (1 / 10 ^ 9 * b) = u * ((1 + 1 / 10 ^ 9) * b) by ring]
        exact mul_le_mul_of_nonneg_left (mul_le_mul_of_nonneg_right (by norm_num) hb) hu.le
      linarith
    refine le_trans e3 (le_trans e4 ?_)
    have l5 : π / 4 ≤ arctan b := by rw [← Real.arctan_one]; exact Real.arctan_le_arctan_iff.2 h1.le
    have hpi := Real.pi_gt_d20
    have := mul_le_mul_of_nonneg_left (show 1002 / 1000 ≤ 16 / 10 * arctan b by norm_num at *; linarith) hu.le
    linarith

theorem abs_arctan (b : ℝ) : |arctan b| = arctan |b| := by
  rcases le_total 0 b with h | h
  · rw [abs_of_nonneg h, abs_of_nonneg (Real.arctan_nonneg.2 h)]
  · rw [abs_of_nonpos h, abs_of_nonpos (by rw [← neg_nonneg, ← Real.arctan_neg]; exact Real.arctan_nonneg.2 (by linarith)), Real.arctan_neg]

theorem arctan_near {u η a b : ℝ} (hu : 0 < u) (hu2 : u ≤ 1 / 2 ^ 52) (hη2 : η ≤ u * (1 / 10 ^ 9)) (hη : 0 ≤ η) (h : |a - b| ≤ u * |b| + η) :
    |arctan a - arctan b| ≤ u * (16 / 10 * |arctan b|) + η := by
  rcases le_total 0 b with h0 | h0
  · rw [abs_arctan, abs_of_nonneg h0]
    rw [abs_of_nonneg h0] at h
    exact arctan_near_pos hu hu2 hη2 hη h0 h
  · rw [abs_arctan, abs_of_nonpos h0]
    rw [abs_of_nonpos h0] at h
    have := arctan_near_pos (a := -a) (b := -b) hu hu2 hη2 hη (by linarith) (by rw [show -a - -b = -(a - b) by ring, abs_neg]; exact h)
    rw [Real.arctan_neg, Real.arctan_neg, show -arctan a - -arctan b = -(arctan a - arctan b) by ring, abs_neg] at this
    rw [Real.arctan_neg]
    exact this

/-- the arctangent of a huge number is almost a right angle -/
theorem arctan_huge {a : ℝ} (h : (2 : ℝ) ^ (200 : ℤ) ≤ a) : |arctan a - π / 2| ≤ 1 / 2 ^ 200 := by
  have hp : (0 : ℝ) < (2 : ℝ) ^ (200 : ℤ) := by positivity
  have ha : 0 < a := lt_of_lt_of_le hp h
  have e1 := Real.arctan_inv_of_pos ha
  have e2 := arctan_le_self' (inv_nonneg.2 ha.le)
  have e3 := Real.arctan_nonneg.2 (inv_nonneg.2 ha.le)
  rw [abs_sub_comm, ← e1, abs_of_nonneg e3]
  refine le_trans e2 ?_
  rw [← one_div]
  refine one_div_le_one_div_of_le (by norm_num) ?_
  refine le_trans (le_of_eq ?_) h
  norm_num

theorem atanDouble_inf (fused : Bool) (md : Mode) : CC.atanDouble fused md 0x7FF0000000000000 = 0x3FF921FB54442D18 ∧ CC.atanDouble fused md 0xFFF0000000000000 = 0xBFF921FB54442D18 := by
  cases fused <;> cases md <;> decide +kernel

/-- the value of a double that a huge positive number rounds to -/
theorem round_huge {m : Mode} {zs : Bool} {v : ℝ} {b : ℕ} (R : binary64.RoundsTo m zs v b) (hv : (2 : ℝ) ^ (1023 : ℤ) ≤ v) :
    b = 0x7FF0000000000000 ∨ (binary64.Finite b ∧ (2 : ℝ) ^ (200 : ℤ) ≤ binary64.val b) := by
  have c := pow2_64 false 1023 (by norm_num) (by norm_num)
  rw [sg_false, one_mul] at c
  have hpos : (0 : ℝ) < (2 : ℝ) ^ (1023 : ℤ) := zpow_pos (by norm_num) _
  rcases RoundsTo.cases binary64 R with h | ⟨h, -⟩ | ⟨-, h⟩
  · right
    refine ⟨h, ?_⟩
    have := RoundsTo.ge_of R c.1 (by rw [c.2]; exact hv)
    rw [xval_of_finite _ c.1, xval_of_finite _ h, EReal.coe_le_coe_iff, c.2] at this
    exact le_trans (two_zpow_le (by norm_num)) this
  · left; rw [h]; rfl
  · exfalso
    have h3 : 0 ≤ binary64.maxFin := le_trans (abs_nonneg _) (binary64.abs_val_le c.1)
    clear c
    generalize (2 : ℝ) ^ (1023 : ℤ) = H at *
    linarith

theorem round_huge_neg {m : Mode} {zs : Bool} {v : ℝ} {b : ℕ} (R : binary64.RoundsTo m zs v b) (hv : v ≤ -(2 : ℝ) ^ (1023 : ℤ)) :
    b = 0xFFF0000000000000 ∨ (binary64.Finite b ∧ binary64.val b ≤ -(2 : ℝ) ^ (200 : ℤ)) := by
  have c := pow2_64 true 1023 (by norm_num) (by norm_num)
  have hpos : (0 : ℝ) < (2 : ℝ) ^ (1023 : ℤ) := zpow_pos (by norm_num) _
  rw [sg_true, neg_one_mul] at c
  rcases RoundsTo.cases binary64 R with h | ⟨-, h⟩ | ⟨h, -⟩
  · right
    refine ⟨h, ?_⟩
    have := RoundsTo.le_of R c.1 (by rw [c.2]; exact hv)
    rw [xval_of_finite _ c.1, xval_of_finite _ h, EReal.coe_le_coe_iff, c.2] at this
    exact le_trans this (neg_le_neg (two_zpow_le (by norm_num)))
  · exfalso
    have h3 : 0 ≤ binary64.maxFin := le_trans (abs_nonneg _) (binary64.abs_val_le c.1)
    clear c
    generalize (2 : ℝ) ^ (1023 : ℤ) = H at *
    linarith
  · left; rw [h]; rfl

/-- `atan` of a rounded quotient, over- and underflow included -/
theorem atan_quot (fused : Bool) (md : Mode) {x y : ℕ} (hx : binary64.Finite x) (hy : binary64.Finite y) (h0 : binary64.val x ≠ 0) :
    binary64.Finite (CC.atanDouble fused md (binary64.hdiv md y x)) ∧
      |binary64.val (CC.atanDouble fused md (binary64.hdiv md y x)) - arctan (binary64.val y / binary64.val x)| ≤
        ru md * (20 * |arctan (binary64.val y / binary64.val x)|) + 5 * eta := by
  have R := binary64.hdiv_spec md hy hx h0
  generalize binary64.hdiv md y x = r at *
  generalize binary64.val y / binary64.val x = q at *
  have hu := ru_pos md
  have hu2 := ru_le md
  have hu3 := ru_ge md
  have hη := eta_le
  have hη0 := eta_pos
  have hη9 : eta ≤ ru md * (1 / 10 ^ 9) := by
    have a : (1 : ℝ) / 2 ^ 200 ≤ 1 / 2 ^ 53 * (1 / 10 ^ 9) := by norm_num
    have b := mul_le_mul_of_nonneg_right hu3 (show (0 : ℝ) ≤ 1 / 10 ^ 9 by norm_num)
    linarith
  have A0 := abs_nonneg (arctan q)
  -- from an error of the argument to an error of the result
  have fin : ∀ δ : ℝ, binary64.Finite r → |arctan (binary64.val r) - arctan q| ≤ ru md * (δ * |arctan q|) + eta → 0 ≤ δ → δ ≤ 16 / 10 →
      binary64.Finite (CC.atanDouble fused md r) ∧ |binary64.val (CC.atanDouble fused md r) - arctan q| ≤ ru md * (20 * |arctan q|) + 5 * eta := by
    intro δ fr k hδ hδ2
    obtain ⟨f1, e1⟩ := atanDouble_spec fused md fr
    refine ⟨f1, le_trans (abs_tri e1 k) ?_⟩
    have k1 : ru md * (δ * |arctan q|) ≤ ru md * (16 / 10 * |arctan q|) := mul_le_mul_of_nonneg_left (mul_le_mul_of_nonneg_right hδ2 A0) hu.le
    have k2 := abs_near k le_rfl
    have k3 : ru md * (16 / 10 * |arctan q|) ≤ 1 / 10 ^ 6 * (16 / 10 * |arctan q|) := mul_le_mul_of_nonneg_right (le_trans hu2 (by norm_num)) (by positivity)
    have k4 : 18 * |arctan (binary64.val r)| ≤ 181 / 10 * |arctan q| + 18 * eta := by norm_num at k3; linarith
    have k5 := mul_le_mul_of_nonneg_left k4 hu.le
    have k6 : ru md * (18 * eta) ≤ eta := by
      have := mul_le_mul_of_nonneg_right (le_trans hu2 (show (1 : ℝ) / 2 ^ 52 ≤ 1 / 18 by norm_num)) (show 0 ≤ 18 * eta by linarith)
      linarith
    have e1 : ru md * (181 / 10 * |arctan q| + 18 * eta) = ru md * (181 / 10 * |arctan q|) + ru md * (18 * eta) := by ring
    have e2 : ru md * (20 * |arctan q|) = ru md * (181 / 10 * |arctan q|) + ru md * (16 / 10 * |arctan q|) + ru md * (3 / 10 * |arctan q|) := by ring
    have e3 : 0 ≤ ru md * (3 / 10 * |arctan q|) := by positivity
    linarith
  rcases le_or_gt |q| (3 / 2 * (2 : ℝ) ^ (1023 : ℤ)) with hq | hq
  · obtain ⟨fr, er⟩ := err64c R hq
    exact fin (16 / 10) fr (arctan_near hu hu2 hη9 hη0.le er) (by norm_num) le_rfl
  · have hpos : (0 : ℝ) < (2 : ℝ) ^ (1023 : ℤ) := zpow_pos (by norm_num) _
    have h200 : (2 : ℝ) ^ (200 : ℤ) ≤ (2 : ℝ) ^ (1023 : ℤ) := two_zpow_le (by norm_num)
    have hpi1 := Real.pi_gt_d20
    have hpi2 := Real.pi_lt_d20
    have c200 : (1 : ℝ) / 2 ^ 200 ≤ 1 / 2 ^ 53 * (1 / 10) := by norm_num
    have hu10 := mul_le_mul_of_nonneg_right hu3 (show (0 : ℝ) ≤ 1 / 10 by norm_num)
    have c1 : (1 : ℝ) / 2 ^ 200 ≤ ru md * (1 / 10) := by linarith
    have c2 : (1 : ℝ) / 2 ^ 200 ≤ 1 / 10 := by norm_num
    rcases lt_abs.1 hq with hq | hq
    · have hq1 : (2 : ℝ) ^ (1023 : ℤ) ≤ q := le_trans (le_mul_of_one_le_left hpos.le (by norm_num)) hq.le
      have k := arctan_huge (le_trans h200 hq1)
      have hA : 14 / 10 ≤ |arctan q| := by
        have := (abs_le.1 k).1
        refine le_trans ?_ (le_abs_self _)
        norm_num at *; linarith
      rcases round_huge R hq1 with h | ⟨f1, h1⟩
      · rw [h, (atanDouble_inf fused md).1]
        refine ⟨val_pi264.1, ?_⟩
        rw [abs_sub_comm] at k
        refine le_trans (abs_tri (ap_pi2 md).err k) ?_
        have := mul_le_mul_of_nonneg_left (show 66 / 100 ≤ 20 * |arctan q| by linarith) hu.le
        linarith
      · have k1 := arctan_huge h1
        rw [abs_sub_comm] at k
        refine fin 1 f1 (le_trans (abs_tri k1 k) ?_) (by norm_num) (by norm_num)
        have := mul_le_mul_of_nonneg_left (show 2 / 10 ≤ 1 * |arctan q| by linarith) hu.le
        linarith
    · have hq1 : (2 : ℝ) ^ (1023 : ℤ) ≤ -q := le_trans (le_mul_of_one_le_left hpos.le (by norm_num)) hq.le
      have k := arctan_huge (le_trans h200 hq1)
      have hA : 14 / 10 ≤ |arctan q| := by
        have := (abs_le.1 k).1
        rw [Real.arctan_neg] at this
        refine le_trans ?_ (neg_le_abs _)
        norm_num at *; linarith
      rw [Real.arctan_neg, show -arctan q - π / 2 = -(π / 2) - arctan q by ring] at k
      rcases round_huge_neg R (le_neg.1 hq1) with h | ⟨f1, h1⟩
      · rw [h, (atanDouble_inf fused md).2]
        have n := (ap_pi2 md).neg
        have hn : binary64.hneg 0x3FF921FB54442D18 = 0xBFF921FB54442D18 := by decide +kernel
        rw [hn] at n
        refine ⟨n.fin, ?_⟩
        refine le_trans (abs_tri n.err k) ?_
        have := mul_le_mul_of_nonneg_left (show 66 / 100 ≤ 20 * |arctan q| by linarith) hu.le
        linarith
      · have k1 := arctan_huge (a := -binary64.val r) (le_neg.1 h1)
        rw [Real.arctan_neg, show -arctan (binary64.val r) - π / 2 = -(arctan (binary64.val r) - -(π / 2)) by ring, abs_neg] at k1
        refine fin 1 f1 (le_trans (abs_tri k1 k) ?_) (by norm_num) (by norm_num)
        have := mul_le_mul_of_nonneg_left (show 2 / 10 ≤ 1 * |arctan q| by linarith) hu.le
        linarith

end Verif
