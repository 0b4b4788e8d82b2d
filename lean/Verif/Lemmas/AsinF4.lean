import Verif.Lemmas.AsinF3
import Verif.Lemmas.Asin11
import Verif.Lemmas.SinCosF4
import Verif.Lemmas.PowF6

/-!
# Accuracy of float `asin` and `atan`
-/

namespace Verif
open Fmt Real

theorem asin_tiny_auxF {u η X q w t K : ℝ} (hu : 0 < u) (hu2 : u ≤ 1 / 2 ^ 23) (hη : 0 ≤ η) (hη2 : η ≤ 1 / 2 ^ 100) (hX : |X| ≤ 1 / 2 ^ 14) (hK : |K| ≤ 17 / 100)
    (hq : |q - X * X| ≤ u * |X * X| + η) (hw : |w - q * X| ≤ u * |q * X| + η) (ht : |t - w * K| ≤ u * |w * K| + η) :
    |t - X * (X ^ 2 * K)| ≤ u * (1 / 2 ^ 20 * |X|) + 12 / 10 * η := by
  have hX0 := abs_nonneg X
  have a1 : |X * X| ≤ 1 / 2 ^ 14 * |X| := abs_mul_le hX le_rfl
  have a1' : |X * X| ≤ 1 / 2 ^ 28 := le_trans (abs_mul_le hX hX) (by norm_num)
  have q1 : |q - X * X| ≤ u * (1 / 2 ^ 14 * |X|) + η := le_trans hq (by have := mul_le_mul_of_nonneg_left a1 hu.le; linarith)
  have c1 : (1 : ℝ) / 2 ^ 23 * (1 / 2 ^ 14 * (1 / 2 ^ 14)) + 1 / 2 ^ 100 + 1 / 2 ^ 28 ≤ 1 / 2 ^ 27 := by norm_num
  have q2 : |q| ≤ 1 / 2 ^ 27 := by
    have := abs_near q1 a1'
    have b : u * (1 / 2 ^ 14 * |X|) ≤ 1 / 2 ^ 23 * (1 / 2 ^ 14 * (1 / 2 ^ 14)) := mul_le_mul hu2 (mul_le_mul_of_nonneg_left hX (by positivity)) (by positivity) (by positivity)
    linarith
  have w0 : |q * X| ≤ 1 / 2 ^ 27 * |X| := abs_mul_le q2 le_rfl
  have w1 : |w - q * X| ≤ u * (1 / 2 ^ 27 * |X|) + η := le_trans hw (by have := mul_le_mul_of_nonneg_left w0 hu.le; linarith)
  have w2 : |q * X - X * X * X| ≤ (u * (1 / 2 ^ 14 * |X|) + η) * (1 / 2 ^ 14) := by
    rw [← sub_mul]; exact abs_mul_le q1 hX
  have w3 := abs_tri w1 w2
  have w4 : |w| ≤ 1 / 2 ^ 26 * |X| + η := by
    have := abs_near w1 w0
    have b : u * (1 / 2 ^ 27 * |X|) ≤ 1 * (1 / 2 ^ 27 * |X|) := mul_le_mul_of_nonneg_right (le_trans hu2 (by norm_num)) (by positivity)
    have c : (1 : ℝ) * (1 / 2 ^ 27 * |X|) + 1 / 2 ^ 27 * |X| = 1 / 2 ^ 26 * |X| := by ring
    linarith
  have t0 := abs_mul_le w4 hK
  have t1 := mul_le_mul_of_nonneg_left t0 hu.le
  have t2 : |w * K - X * X * X * K| ≤ (u * (1 / 2 ^ 27 * |X|) + η + (u * (1 / 2 ^ 14 * |X|) + η) * (1 / 2 ^ 14)) * (17 / 100) := by
    rw [← sub_mul]; exact abs_mul_le w3 hK
  have t3 := abs_tri ht t2
  rw [show X * (X ^ 2 * K) = X * X * X * K by ring]
  refine le_trans t3 ?_
  have hz : u * η ≤ 1 / 2 ^ 23 * η := mul_le_mul_of_nonneg_right hu2 hη
  have hz0 : 0 ≤ u * |X| := by positivity
  have t4 : u * |w * K| ≤ u * |X| * (1 / 2 ^ 26 * (17 / 100)) + u * η * (17 / 100) := le_trans t1 (by linarith)
  have e1 : u * (1 / 2 ^ 27 * |X|) = u * |X| * (1 / 2 ^ 27) := by ring
  have e2 : u * (1 / 2 ^ 14 * |X|) = u * |X| * (1 / 2 ^ 14) := by ring
  have e3 : u * (1 / 2 ^ 20 * |X|) = u * |X| * (1 / 2 ^ 20) := by ring
  rw [e1, e2, e3]
  generalize u * |X| = A at *
  generalize u * η = C at *
  clear t1 t3 t2 t0 w4 w3 w2 w1 w0 q1 q2 a1 a1' hq hw ht
  norm_num at *
  linarith

/-- a positive number changed by one rounding: the arctangent changes by at most 1.6 rounding units -/
theorem arctan_near_posF {u η a b : ℝ} (hu : 0 < u) (hu2 : u ≤ 1 / 2 ^ 23) (hη2 : η ≤ u * (1 / 10 ^ 9)) (hη : 0 ≤ η) (hb : 0 ≤ b) (h : |a - b| ≤ u * b + η) :
    |arctan a - arctan b| ≤ u * (16 / 10 * arctan b) + η := by
  have u1 : u ≤ 1 / 10 ^ 6 := le_trans hu2 (by norm_num)
  rcases le_or_gt b 1 with h1 | h1
  · refine le_trans (arctan_lip a b) (le_trans h ?_)
    have c1 := (arctan_cubic hb).1
    have : b ^ 3 ≤ b := by
      have := pow_le_pow_of_le_one hb h1 (show 1 ≤ 3 by norm_num)
      simpa using this
    have := mul_le_mul_of_nonneg_left (show b ≤ 16 / 10 * arctan b by linarith) hu.le
    linarith
  · have hb0 : 0 < b := by linarith
    have ha := abs_le.1 h
    have k : u * b ≤ 1 / 10 ^ 6 * b := mul_le_mul_of_nonneg_right u1 hb
    have ha1 : 999 / 1000 * b ≤ a := by norm_num at *; linarith
    have ha0 : 0 < a := by linarith
    have e1 := Real.arctan_inv_of_pos ha0
    have e2 := Real.arctan_inv_of_pos hb0
    have e3 := arctan_lip a⁻¹ b⁻¹
    rw [e1, e2, show π / 2 - arctan a - (π / 2 - arctan b) = -(arctan a - arctan b) by ring, abs_neg] at e3
    have e4 : |a⁻¹ - b⁻¹| ≤ u * (1002 / 1000) := by
      have : a⁻¹ - b⁻¹ = -(a - b) / (a * b) := by field_simp; ring
      rw [this, abs_div, abs_neg, abs_of_pos (mul_pos ha0 hb0), div_le_iff₀ (mul_pos ha0 hb0)]
      refine le_trans h ?_
      have l1 : 999 / 1000 * 1 * b ≤ a * b := mul_le_mul_of_nonneg_right (by linarith) hb
      have l2 := mul_le_mul_of_nonneg_left l1 (show 0 ≤ u * (1002 / 1000) by positivity)
      have l3 : η ≤ u * (1 / 10 ^ 9 * b) := le_trans hη2 (mul_le_mul_of_nonneg_left (by linarith) hu.le)
      have l4 : u * b + u * (1 / 10 ^ 9 * b) ≤ u * (1002 / 1000) * (999 / 1000 * 1 * b) := by
        rw [show u * (1002 / 1000) * (999 / 1000 * 1 * b) = u * (1002 / 1000 * (999 / 1000) * b) by ring, show u * b + u * (1 / 10 ^ 9 * b) = u * ((1 + 1 / 10 ^ 9) * b) by ring]
        exact mul_le_mul_of_nonneg_left (mul_le_mul_of_nonneg_right (by norm_num) hb) hu.le
      linarith
    refine le_trans e3 (le_trans e4 ?_)
    have l5 : π / 4 ≤ arctan b := by rw [← Real.arctan_one]; exact Real.arctan_le_arctan_iff.2 h1.le
    have hpi := Real.pi_gt_d20
    have := mul_le_mul_of_nonneg_left (show 1002 / 1000 ≤ 16 / 10 * arctan b by norm_num at *; linarith) hu.le
    linarith

theorem arctan_nearF {u η a b : ℝ} (hu : 0 < u) (hu2 : u ≤ 1 / 2 ^ 23) (hη2 : η ≤ u * (1 / 10 ^ 9)) (hη : 0 ≤ η) (h : |a - b| ≤ u * |b| + η) :
    |arctan a - arctan b| ≤ u * (16 / 10 * |arctan b|) + η := by
  rcases le_total 0 b with h0 | h0
  · rw [abs_arctan, abs_of_nonneg h0]
    rw [abs_of_nonneg h0] at h
    exact arctan_near_posF hu hu2 hη2 hη h0 h
  · rw [abs_arctan, abs_of_nonpos h0]
    rw [abs_of_nonpos h0] at h
    have := arctan_near_posF (a := -a) (b := -b) hu hu2 hη2 hη (by linarith) (by rw [show -a - -b = -(a - b) by ring, abs_neg]; exact h)
    rw [Real.arctan_neg, Real.arctan_neg, show -arctan a - -arctan b = -(arctan a - arctan b) by ring, abs_neg] at this
    rw [Real.arctan_neg]
    exact this

/-- the arctangent of a huge number is almost a right angle -/
theorem arctan_hugeF {a : ℝ} (h : (2 : ℝ) ^ (100 : ℤ) ≤ a) : |arctan a - π / 2| ≤ 1 / 2 ^ 100 := by
  have hp : (0 : ℝ) < (2 : ℝ) ^ (100 : ℤ) := by positivity
  have ha : 0 < a := lt_of_lt_of_le hp h
  have e1 := Real.arctan_inv_of_pos ha
  have e2 := arctan_le_self' (inv_nonneg.2 ha.le)
  have e3 := Real.arctan_nonneg.2 (inv_nonneg.2 ha.le)
  rw [abs_sub_comm, ← e1, abs_of_nonneg e3]
  refine le_trans e2 ?_
  rw [← one_div]
  refine one_div_le_one_div_of_le (by norm_num) ?_
  refine le_trans (le_of_eq ?_) h
  norm_num

/-- the value of a double that a huge positive number rounds to -/
theorem round_hugeF {m : Mode} {zs : Bool} {v : ℝ} {b : ℕ} (R : binary32.RoundsTo m zs v b) (hv : (2 : ℝ) ^ (127 : ℤ) ≤ v) :
    b = 0x7F800000 ∨ (binary32.Finite b ∧ (2 : ℝ) ^ (100 : ℤ) ≤ binary32.val b) := by
  have c := pow2_32 false 127 (by norm_num) (by norm_num)
  rw [sg_false, one_mul] at c
  have hpos : (0 : ℝ) < (2 : ℝ) ^ (127 : ℤ) := zpow_pos (by norm_num) _
  rcases RoundsTo.cases binary32 R with h | ⟨h, -⟩ | ⟨-, h⟩
  · right
    refine ⟨h, ?_⟩
    have := RoundsTo.ge_of R c.1 (by rw [c.2]; exact hv)
    rw [xval_of_finite _ c.1, xval_of_finite _ h, EReal.coe_le_coe_iff, c.2] at this
    exact le_trans (two_zpow_le (by norm_num)) this
  · left; rw [h]; rfl
  · exfalso
    have h3 : 0 ≤ binary32.maxFin := le_trans (abs_nonneg _) (binary32.abs_val_le c.1)
    clear c
    generalize (2 : ℝ) ^ (127 : ℤ) = H at *
    linarith

theorem round_huge_negF {m : Mode} {zs : Bool} {v : ℝ} {b : ℕ} (R : binary32.RoundsTo m zs v b) (hv : v ≤ -(2 : ℝ) ^ (127 : ℤ)) :
    b = 0xFF800000 ∨ (binary32.Finite b ∧ binary32.val b ≤ -(2 : ℝ) ^ (100 : ℤ)) := by
  have c := pow2_32 true 127 (by norm_num) (by norm_num)
  have hpos : (0 : ℝ) < (2 : ℝ) ^ (127 : ℤ) := zpow_pos (by norm_num) _
  rw [sg_true, neg_one_mul] at c
  rcases RoundsTo.cases binary32 R with h | ⟨-, h⟩ | ⟨h, -⟩
  · right
    refine ⟨h, ?_⟩
    have := RoundsTo.le_of R c.1 (by rw [c.2]; exact hv)
    rw [xval_of_finite _ c.1, xval_of_finite _ h, EReal.coe_le_coe_iff, c.2] at this
    exact le_trans this (neg_le_neg (two_zpow_le (by norm_num)))
  · exfalso
    have h3 : 0 ≤ binary32.maxFin := le_trans (abs_nonneg _) (binary32.abs_val_le c.1)
    clear c
    generalize (2 : ℝ) ^ (127 : ℤ) = H at *
    linarith
  · left; rw [h]; rfl

theorem fval_m14F : binary32.Finite 0x38800000 ∧ binary32.val 0x38800000 = 1 / 2 ^ 14 := by
  refine ⟨by decide +kernel, ?_⟩
  rw [lit32 false 8388608 37 (by decide +kernel) (by decide +kernel) (by decide +kernel) (by decide +kernel)]; norm_num [sg]
theorem val_sixthF : binary32.Finite 0x3E2AAAAB ∧ binary32.val 0x3E2AAAAB = 11184811 / 2 ^ 26 := by
  refine ⟨by decide +kernel, ?_⟩
  rw [lit32 false 11184811 26 (by decide +kernel) (by decide +kernel) (by decide +kernel) (by decide +kernel)]; norm_num [sg]

/-- a double close to `A`, rounded to float -/
theorem cvt_down_near (md : Mode) {r : ℕ} {A δ : ℝ} (hr : binary64.Finite r) (hA : |A| ≤ 4) (hδ : δ ≤ 1 / 2 ^ 40) (h : |binary64.val r - A| ≤ δ * |A|) :
    binary32.Finite (binary32.hcvt binary64 md r) ∧ |binary32.val (binary32.hcvt binary64 md r) - A| ≤ ruf md * (1001 / 1000 * |A|) + etaf := by
  have hu := ruf_pos md
  have hu3 := ruf_ge md
  have hA0 := abs_nonneg A
  have h' : |binary64.val r - A| ≤ 1 / 2 ^ 40 * |A| := le_trans h (mul_le_mul_of_nonneg_right hδ hA0)
  have hb := abs_near h' le_rfl
  have R := CC.hcvt_spec binary32 binary64 md hr
  obtain ⟨f, e⟩ := err32 R (by
    have : (1 : ℝ) / 2 ^ 40 * |A| ≤ 1 * |A| := mul_le_mul_of_nonneg_right (by norm_num) hA0
    refine le_trans hb ?_
    refine le_trans (show _ ≤ (8 : ℝ) by linarith) (by norm_num))
  refine ⟨f, le_trans (abs_tri e h') ?_⟩
  have k1 := mul_le_mul_of_nonneg_left hb hu.le
  have k2 : ruf md * (1 / 2 ^ 40 * |A|) ≤ ruf md * (1 / 10000 * |A|) := mul_le_mul_of_nonneg_left (mul_le_mul_of_nonneg_right (by norm_num) hA0) hu.le
  have k3 : 1 / 2 ^ 40 * |A| ≤ ruf md * (1 / 10000 * |A|) := by
    rw [← mul_assoc]
    refine mul_le_mul_of_nonneg_right ?_ hA0
    have := mul_le_mul_of_nonneg_right hu3 (show (0 : ℝ) ≤ 1 / 10000 by norm_num)
    refine le_trans ?_ this
    norm_num
  have e1 : ruf md * (1001 / 1000 * |A|) = ruf md * |A| + ruf md * (1 / 10000 * |A|) * 10 := by ring
  have k4 : 0 ≤ ruf md * (1 / 10000 * |A|) := by positivity
  rw [e1]
  rw [mul_add] at k1
  linarith

/-- the least positive float -/
theorem abs_ge_sub32 {x : ℕ} (h : binary32.val x ≠ 0) : (2 : ℝ) ^ (-149 : ℤ) ≤ |binary32.val x| := by
  have hm := binary32.mult_ce x
  have he : binary32.emin = -149 := by decide +kernel
  have := binary32.ce_ge x
  rw [he] at this
  exact (hm.weaken this).ge h

theorem eta_tiny : 3 * eta ≤ 1 / 2 ^ 50 * (1 / 2 * (2 : ℝ) ^ (-149 : ℤ)) := by
  have h : eta = (2 : ℝ) ^ (-1074 : ℤ) := rfl
  have e : (2 : ℝ) ^ (-149 : ℤ) = (2 : ℝ) ^ (-1074 : ℤ) * (2 : ℝ) ^ (925 : ℤ) := by rw [← zpow_add₀ (by norm_num)]; norm_num
  have h2 : (2 : ℝ) ^ (100 : ℤ) ≤ (2 : ℝ) ^ (925 : ℤ) := two_zpow_le (by norm_num)
  have h3 : (2 : ℝ) ^ (100 : ℤ) = 2 ^ 100 := by norm_cast
  rw [h, e]
  have h0 : (0 : ℝ) < (2 : ℝ) ^ (-1074 : ℤ) := by positivity
  generalize (2 : ℝ) ^ (-1074 : ℤ) = a at *
  rw [h3] at h2
  generalize (2 : ℝ) ^ (925 : ℤ) = b at *
  have : 3 ≤ 1 / 2 ^ 50 * (1 / 2 * b) := by
    have := mul_le_mul_of_nonneg_left h2 (show (0 : ℝ) ≤ 1 / 2 ^ 50 * (1 / 2) by norm_num)
    norm_num at *
    linarith
  calc 3 * a ≤ (1 / 2 ^ 50 * (1 / 2 * b)) * a := mul_le_mul_of_nonneg_right this h0.le
    _ = _ := by ring

theorem arctan_ge_half {z : ℝ} (h0 : 0 ≤ z) (h1 : z ≤ 1) : 1 / 2 * z ≤ arctan z := by
  have c1 := (arctan_cubic h0).1
  have : z ^ 3 ≤ z := by
    have := pow_le_pow_of_le_one h0 h1 (show 1 ≤ 3 by norm_num)
    simpa using this
  linarith

theorem abs_arctan_ge_sub {x : ℕ} (h : binary32.val x ≠ 0) : 1 / 2 * (2 : ℝ) ^ (-149 : ℤ) ≤ |arctan (binary32.val x)| := by
  have h1 := abs_ge_sub32 h
  rw [abs_arctan]
  have h2 : (2 : ℝ) ^ (-149 : ℤ) ≤ 1 := by
    have := two_zpow_le (show (-149 : ℤ) ≤ 0 by norm_num)
    rwa [zpow_zero] at this
  exact le_trans (arctan_ge_half (by positivity) h2) (Real.arctan_le_arctan_iff.2 h1)

/-- the double that float `atan` rounds -/
theorem atanFloat_inner (fused : Bool) (md : Mode) {x : ℕ} (hx : binary32.Finite x) (h : binary32.val x ≠ 0) :
    binary64.Finite (CC.atanDouble fused md (binary64.hcvt binary32 md x)) ∧
      |binary64.val (CC.atanDouble fused md (binary64.hcvt binary32 md x)) - arctan (binary32.val x)| ≤ 1 / 2 ^ 47 * |arctan (binary32.val x)| := by
  obtain ⟨f1, v1⟩ := cvt_up md hx
  obtain ⟨f2, e2⟩ := atanDouble_spec fused md f1
  rw [v1] at e2
  refine ⟨f2, le_trans e2 ?_⟩
  have h1 := abs_arctan_ge_sub h
  have h2 := eta_tiny
  have h3 := mul_le_mul_of_nonneg_left h1 (show (0 : ℝ) ≤ 1 / 2 ^ 50 by norm_num)
  have h4 := mul_le_mul_of_nonneg_right (ru_le md) (show 0 ≤ 18 * |arctan (binary32.val x)| by positivity)
  have h5 : 1 / 2 ^ 52 * (18 * |arctan (binary32.val x)|) + 1 / 2 ^ 50 * |arctan (binary32.val x)| ≤ 1 / 2 ^ 47 * |arctan (binary32.val x)| := by
    rw [← mul_assoc, ← add_mul]
    exact mul_le_mul_of_nonneg_right (by norm_num) (abs_nonneg _)
  linarith

theorem atanFloat_spec (fused : Bool) (md : Mode) {x : ℕ} (hx : binary32.Finite x) :
    binary32.Finite (CC.atanFloat fused md x) ∧ |binary32.val (CC.atanFloat fused md x) - arctan (binary32.val x)| ≤ ruf md * (1001 / 1000 * |arctan (binary32.val x)|) + etaf := by
  have hA : |arctan (binary32.val x)| ≤ 4 := by
    have h1 := Real.arctan_lt_pi_div_two (binary32.val x)
    have h2 := Real.neg_pi_div_two_lt_arctan (binary32.val x)
    have := Real.pi_le_four
    rw [abs_le]; constructor <;> linarith
  by_cases h : binary32.val x = 0
  · obtain ⟨f1, v1⟩ := cvt_up md hx
    have hz : binary64.hcvt binary32 md x = 0 ∨ binary64.hcvt binary32 md x = 0x8000000000000000 := by
      have h1 := f1.valid
      have h2 := (binary64.val_eq_zero_iff _).1 (v1.trans h)
      unfold Fmt.Valid at h1
      unfold Fmt.mag at h2
      have e1 : binary64.E = 11 := rfl
      have e2 : binary64.F = 52 := rfl
      simp only [e1, e2] at h1 h2
      omega
    unfold CC.atanFloat
    have d : ∀ z, z = 0 ∨ z = 0x8000000000000000 → binary32.hcvt binary64 md (CC.atanDouble fused md z) = 0 ∨ binary32.hcvt binary64 md (CC.atanDouble fused md z) = 0x80000000 := by
      rintro z (rfl | rfl)
      · left; cases fused <;> cases md <;> decide +kernel
      · right; cases fused <;> cases md <;> decide +kernel
    have hη := etaf_pos
    rw [h, Real.arctan_zero, abs_zero, mul_zero, mul_zero, zero_add, sub_zero]
    rcases d _ hz with e | e <;> rw [e]
    · exact ⟨fval_zero32.1, by rw [fval_zero32.2, abs_zero]; exact hη.le⟩
    · have : binary32.val 0x80000000 = 0 := (binary32.val_eq_zero_iff _).2 (by decide +kernel)
      exact ⟨by decide +kernel, by rw [this, abs_zero]; exact hη.le⟩
  · obtain ⟨f1, e1⟩ := atanFloat_inner fused md hx h
    exact cvt_down_near md f1 hA (by norm_num) e1

/-- `asin_small_impl<float>` from `2^-14` on is the double function, rounded -/
theorem asinSmallF_inner (fused : Bool) (md : Mode) {x : ℕ} (hx : binary32.Finite x) (h1 : 1 / 2 ^ 14 ≤ |binary32.val x|) (h2 : |binary32.val x| ≤ 1 / 2) :
    ∃ r, CC.asinSmallF fused md x = binary32.hcvt binary64 md r ∧ binary64.Finite r ∧ |binary64.val r - arcsin (binary32.val x)| ≤ 1 / 2 ^ 51 * |arcsin (binary32.val x)| := by
  obtain ⟨f1, v1⟩ := cvt_up md hx
  obtain ⟨fa, va, -⟩ := C03_fabs_value binary32 hx
  obtain ⟨fa', va', -⟩ := C03_fabs_value binary64 f1
  refine ⟨CC.asinSmall fused md (binary64.hcvt binary32 md x), ?_, ?_⟩
  · unfold CC.asinSmallF CC.asinSmall
    dsimp only
    rw [if_neg (by rw [CC.hlt_finite binary32 fa fval_m14F.1, va, fval_m14F.2, not_lt]; exact h1),
      if_neg (by rw [CC.hlt_finite binary64 fa' fval_m14.1, va', fval_m14.2, v1, not_lt]; exact h1)]
  · obtain ⟨f, e⟩ := asinSmall_spec fused md f1 (by rw [v1]; exact h2)
    rw [v1] at e
    refine ⟨f, le_trans e ?_⟩
    have hA := abs_le_arcsin (x := binary32.val x) (by linarith)
    have hη : 3 * eta ≤ 1 / 2 ^ 60 * (1 / 2 ^ 14) := le_trans (mul_le_mul_of_nonneg_left eta_le (by norm_num)) (by norm_num)
    have k1 := mul_le_mul_of_nonneg_left (le_trans h1 hA) (show (0 : ℝ) ≤ 1 / 2 ^ 60 by norm_num)
    have k2 := mul_le_mul_of_nonneg_right (ru_le md) (show 0 ≤ 155 / 100 * |arcsin (binary32.val x)| by positivity)
    have k3 : 1 / 2 ^ 52 * (155 / 100 * |arcsin (binary32.val x)|) + 1 / 2 ^ 60 * |arcsin (binary32.val x)| ≤ 1 / 2 ^ 51 * |arcsin (binary32.val x)| := by
      rw [← mul_assoc, ← add_mul]
      exact mul_le_mul_of_nonneg_right (by norm_num) (abs_nonneg _)
    linarith

/-- `asin_small_impl<float>` below `2^-14` -/
theorem asinSmallF_tiny (fused : Bool) (md : Mode) {x : ℕ} (hx : binary32.Finite x) (hX : |binary32.val x| < 1 / 2 ^ 14) :
    binary32.Finite (CC.asinSmallF fused md x) ∧
      |binary32.val (CC.asinSmallF fused md x) - arcsin (binary32.val x)| ≤ ruf md * (102 / 100 * |arcsin (binary32.val x)|) + 3 * etaf := by
  have hu := ruf_pos md
  have hu2 := ruf_le md
  have hu3 := ruf_ge md
  have hη := etaf_le
  have hη0 := etaf_pos
  obtain ⟨fa, va, -⟩ := C03_fabs_value binary32 hx
  have hXA := abs_le_arcsin (x := binary32.val x) (le_trans hX.le (by norm_num))
  unfold CC.asinSmallF
  dsimp only
  rw [if_pos (by rw [CC.hlt_finite binary32 fa fval_m14F.1, va, fval_m14F.2]; exact hX)]
  replace hX := hX.le
  obtain ⟨fq, eq⟩ := mul32_err md hx hx (le_trans (abs_mul_le hX hX) (by norm_num))
  have hq2 : |binary32.val (binary32.hmul md x x)| ≤ 1 := by
    refine le_trans (abs_near eq (abs_mul_le hX hX)) ?_
    have := mul_le_mul hu2 (abs_mul_le hX hX) (abs_nonneg _) (by positivity)
    norm_num at *
    linarith
  obtain ⟨fw, ew⟩ := mul32_err md fq hx (le_trans (abs_mul_le hq2 hX) (by norm_num))
  have hw2 : |binary32.val (binary32.hmul md (binary32.hmul md x x) x)| ≤ 1 := by
    refine le_trans (abs_near ew (abs_mul_le hq2 hX)) ?_
    have := mul_le_mul hu2 (abs_mul_le hq2 hX) (abs_nonneg _) (by positivity)
    norm_num at *
    linarith
  have hK : |binary32.val 0x3E2AAAAB| ≤ 17 / 100 := by rw [val_sixthF.2]; norm_num [abs_le]
  obtain ⟨ft, et⟩ := mul32_err md fw val_sixthF.1 (le_trans (abs_mul_le hw2 hK) (by norm_num))
  have key := asin_tiny_auxF hu hu2 hη0.le hη hX hK eq ew et
  generalize binary32.hmul md (binary32.hmul md (binary32.hmul md x x) x) 0x3E2AAAAB = t at *
  clear eq ew et hq2 hw2 fq fw
  have cub := arcsin_cubic (X := binary32.val x) (k := 1 / 6) (le_trans hX (by norm_num)) (by norm_num)
  have hK2 : |binary32.val 0x3E2AAAAB - 1 / 6| ≤ 1 / 2 ^ 20 := by rw [val_sixthF.2]; norm_num [abs_le]
  generalize binary32.val 0x3E2AAAAB = K at *
  generalize hXe : binary32.val x = X at *
  have hX0 := abs_nonneg X
  have hs : X ^ 2 ≤ 1 / 2 ^ 28 := by
    have := abs_mul_le hX hX
    rw [← pow_two, abs_of_nonneg (sq_nonneg X)] at this
    exact le_trans this (by norm_num)
  have cub2 : |X + X * (X ^ 2 * K) - arcsin X| ≤ ruf md * (1 / 100 * |X|) := by
    have k1 : |X * (X ^ 2 * (K - 1 / 6))| ≤ |X| * (1 / 2 ^ 28 * (1 / 2 ^ 20)) := abs_mul_le le_rfl (abs_mul_le (by rw [abs_of_nonneg (sq_nonneg X)]; exact hs) hK2)
    rw [show X + X * (X ^ 2 * K) - arcsin X = X * (X ^ 2 * (K - 1 / 6)) + (X + X * (X ^ 2 * (1 / 6)) - arcsin X) by ring]
    refine le_trans (abs_add_le' k1 cub) ?_
    have a : X ^ 2 * (11 / 100 * X ^ 2 + 1 / 2 ^ 42) ≤ 1 / 2 ^ 28 * (11 / 100 * (1 / 2 ^ 28) + 1 / 2 ^ 42) :=
      mul_le_mul hs (by linarith) (by positivity) (by positivity)
    have b := mul_le_mul_of_nonneg_right hu3 (show (0 : ℝ) ≤ 1 / 100 * |X| by positivity)
    refine le_trans ?_ b
    have c := mul_le_mul_of_nonneg_right a hX0
    have d : |X| * (1 / 2 ^ 28 * (1 / 2 ^ 20)) + (1 / 2 ^ 28 * (11 / 100 * (1 / 2 ^ 28) + 1 / 2 ^ 42) + 1 / 5 / 2 ^ 53) * |X| ≤ 1 / 2 ^ 24 * (1 / 100 * |X|) := by
      rw [mul_comm |X|, ← add_mul, ← mul_assoc]
      exact mul_le_mul_of_nonneg_right (by norm_num) hX0
    rw [add_mul] at d ⊢
    linarith
  have hS : |X + binary32.val t - arcsin X| ≤ ruf md * (11 / 1000 * |X|) + 12 / 10 * etaf := by
    rw [show X + binary32.val t - arcsin X = (binary32.val t - X * (X ^ 2 * K)) + (X + X * (X ^ 2 * K) - arcsin X) by ring]
    refine le_trans (abs_add_le' key cub2) ?_
    have : ruf md * (1 / 2 ^ 20 * |X|) + ruf md * (1 / 100 * |X|) ≤ ruf md * (11 / 1000 * |X|) := by
      rw [← mul_add]
      refine mul_le_mul_of_nonneg_left ?_ hu.le
      rw [← add_mul]
      exact mul_le_mul_of_nonneg_right (by norm_num) (abs_nonneg X)
    linarith
  have hA4 : |arcsin X| ≤ 4 := by
    have := Real.arcsin_le_pi_div_two X
    have := Real.neg_pi_div_two_le_arcsin X
    have := Real.pi_le_four
    rw [abs_le]; constructor <;> linarith
  have hSb : |X + binary32.val t| ≤ 10 := by
    refine le_trans (abs_near hS hA4) ?_
    have h2 : ruf md * (11 / 1000 * |X|) ≤ 1 * 1 := mul_le_mul (le_trans hu2 (by norm_num)) (by norm_num at *; linarith) (by positivity) (by norm_num)
    have h3 : etaf ≤ 1 := le_trans hη (by norm_num)
    linarith
  obtain ⟨fr, er⟩ := add32_err md hx ft (by rw [hXe]; exact le_trans hSb (by norm_num))
  rw [hXe] at er
  refine ⟨fr, ?_⟩
  have h3 : |X + binary32.val t - arcsin X| ≤ ruf md * (11 / 1000 * |arcsin X|) + 12 / 10 * etaf := le_trans hS (by
    have := mul_le_mul_of_nonneg_left (mul_le_mul_of_nonneg_left hXA (show (0 : ℝ) ≤ 11 / 1000 by norm_num)) hu.le
    linarith)
  have h4 := mul_le_mul_of_nonneg_left (abs_near h3 le_rfl) hu.le
  refine le_trans (abs_tri er h3) ?_
  have hA0 := abs_nonneg (arcsin X)
  have k1 : ruf md * (ruf md * (11 / 1000 * |arcsin X|)) ≤ ruf md * (1 / 1000 * |arcsin X|) := by
    refine mul_le_mul_of_nonneg_left ?_ hu.le
    have := mul_le_mul_of_nonneg_right (le_trans hu2 (show (1 : ℝ) / 2 ^ 23 ≤ 1 / 11 by norm_num)) (show 0 ≤ 11 / 1000 * |arcsin X| by positivity)
    linarith
  have k2 : ruf md * (12 / 10 * etaf) ≤ 1 / 10 * etaf := by
    have := mul_le_mul_of_nonneg_right (le_trans hu2 (show (1 : ℝ) / 2 ^ 23 ≤ 1 / 12 by norm_num)) (show 0 ≤ 12 / 10 * etaf by positivity)
    linarith
  have e1 : ruf md * (102 / 100 * |arcsin X|) = ruf md * |arcsin X| + ruf md * (11 / 1000 * |arcsin X|) + ruf md * (1 / 1000 * |arcsin X|) + ruf md * (8 / 1000 * |arcsin X|) := by ring
  have k3 : 0 ≤ ruf md * (8 / 1000 * |arcsin X|) := by positivity
  rw [e1]
  rw [mul_add, mul_add] at h4
  linarith

/-- float `asin` on its domain -/
theorem asinFloat_spec (fused : Bool) (md : Mode) {x : ℕ} (hx : binary32.Finite x) (h : |binary32.val x| ≤ 1) :
    binary32.Finite (CC.asinFloat fused md x) ∧
      (|binary32.val x| ≤ 1 / 2 → |binary32.val (CC.asinFloat fused md x) - arcsin (binary32.val x)| ≤ ruf md * (102 / 100 * |arcsin (binary32.val x)|) + 3 * etaf) ∧
      (1 / 2 < binary32.val x → |binary32.val (CC.asinFloat fused md x) - arcsin (binary32.val x)| ≤ ruf md * (9 * |arcsin (binary32.val x)|)) ∧
      (binary32.val x < -(1 / 2) → |binary32.val (CC.asinFloat fused md x) - arcsin (binary32.val x)| ≤ ruf md * (15 * |arcsin (binary32.val x)|)) := by
  have hu := ruf_pos md
  have hη0 := etaf_pos
  obtain ⟨fa, va, -⟩ := C03_fabs_value binary32 hx
  unfold CC.asinFloat
  split_ifs with c1 c2
  · rw [CC.heq_finite binary32 hx fval_zero32.1, fval_zero32.2] at c1
    refine ⟨hx, fun _ => ?_, fun h => ?_, fun h => ?_⟩
    · rw [c1, Real.arcsin_zero]; simp; exact hη0.le
    · rw [c1] at h; norm_num at h
    · rw [c1] at h; norm_num at h
  · rw [CC.hle_finite binary32 fa fval_half32.1, va, fval_half32.2] at c2
    have := abs_le.1 c2
    have hA4 : |arcsin (binary32.val x)| ≤ 4 := by
      have := Real.arcsin_le_pi_div_two (binary32.val x)
      have := Real.neg_pi_div_two_le_arcsin (binary32.val x)
      have := Real.pi_le_four
      rw [abs_le]; constructor <;> linarith
    have key : binary32.Finite (CC.asinSmallF fused md x) ∧
        |binary32.val (CC.asinSmallF fused md x) - arcsin (binary32.val x)| ≤ ruf md * (102 / 100 * |arcsin (binary32.val x)|) + 3 * etaf := by
      rcases lt_or_ge |binary32.val x| (1 / 2 ^ 14) with c | c
      · exact asinSmallF_tiny fused md hx c
      · obtain ⟨r, e, fr, er⟩ := asinSmallF_inner fused md hx c c2
        obtain ⟨f, e2⟩ := cvt_down_near md fr hA4 (by norm_num) er
        rw [e]
        refine ⟨f, le_trans e2 ?_⟩
        have := mul_le_mul_of_nonneg_left (mul_le_mul_of_nonneg_right (show (1001 : ℝ) / 1000 ≤ 102 / 100 by norm_num) (abs_nonneg (arcsin (binary32.val x)))) hu.le
        linarith
    exact ⟨key.1, fun _ => key.2, fun h => absurd h (by linarith), fun h => absurd h (by linarith)⟩
  · rw [CC.hle_finite binary32 fa fval_half32.1, va, fval_half32.2] at c2
    obtain ⟨f1, e1⟩ := acosFloat_spec fused md hx h
    rw [pi_div_twoF]
    have hpi1 := Real.pi_gt_d20
    have hpi2 := Real.pi_lt_d20
    have hle := Real.arccos_le_pi (binary32.val x)
    have h0 := Real.arccos_nonneg (binary32.val x)
    have hA : arcsin (binary32.val x) = π / 2 - arccos (binary32.val x) := by rw [arccos]; ring
    have ap : ApF md _ (arccos (binary32.val x)) 4 (3 * arccos (binary32.val x)) := ⟨f1, e1, by rw [abs_of_nonneg h0]; norm_num at *; linarith⟩
    have s := ApF.sub (ap_pi2F md) ap (S := |arcsin (binary32.val x)|) (B := |arcsin (binary32.val x)|)
      (e := 741 / 1000 + 3 * arccos (binary32.val x) + |arcsin (binary32.val x)|) (by rw [hA]) le_rfl
      (by norm_num at *; linarith) (by
        have := Real.arcsin_le_pi_div_two (binary32.val x)
        have := Real.neg_pi_div_two_le_arcsin (binary32.val x)
        have : |arcsin (binary32.val x)| ≤ 2 := abs_le.2 (by constructor <;> norm_num at * <;> linarith)
        norm_num at *; linarith)
    have er := s.err
    rw [← hA] at er
    refine ⟨s.fin, fun h => absurd h c2, fun hp => ?_, fun hn => ?_⟩
    · refine le_trans er (mul_le_mul_of_nonneg_left ?_ hu.le)
      have g := arcsin_half_ge hp.le
      rw [abs_of_nonneg (by linarith [Real.pi_pos])]
      clear er s ap
      norm_num at *; linarith
    · refine le_trans er (mul_le_mul_of_nonneg_left ?_ hu.le)
      have g := arcsin_half_ge (X := -binary32.val x) (by linarith)
      rw [Real.arcsin_neg] at g
      rw [abs_of_nonpos (by linarith [Real.pi_pos])]
      clear er s ap
      norm_num at *; linarith

theorem atanFloat_inf (fused : Bool) (md : Mode) :
    CC.atanFloat fused md 0x7F800000 = (if md = .nearest ∨ md = .up then 0x3FC90FDB else 0x3FC90FDA) ∧
      CC.atanFloat fused md 0xFF800000 = (if md = .nearest ∨ md = .down then 0xBFC90FDB else 0xBFC90FDA) := by
  cases fused <;> cases md <;> decide +kernel

theorem atanFloat_inf_near (fused : Bool) (md : Mode) :
    (binary32.Finite (CC.atanFloat fused md 0x7F800000) ∧ |binary32.val (CC.atanFloat fused md 0x7F800000) - π / 2| ≤ ruf md * 2) ∧
      (binary32.Finite (CC.atanFloat fused md 0xFF800000) ∧ |binary32.val (CC.atanFloat fused md 0xFF800000) - -(π / 2)| ≤ ruf md * 2) := by
  have hu := ruf_pos md
  have hη : etaf ≤ ruf md * (1 / 100) := by
    have a := etaf_le
    have b := mul_le_mul_of_nonneg_right (ruf_ge md) (show (0 : ℝ) ≤ 1 / 100 by norm_num)
    have c : (1 : ℝ) / 2 ^ 100 ≤ 1 / 2 ^ 24 * (1 / 100) := by norm_num
    linarith
  have hpi1 := Real.pi_gt_d20
  have hpi2 := Real.pi_lt_d20
  have c1 : binary64.hcvt binary32 md 0x7F800000 = 0x7FF0000000000000 := by cases md <;> decide +kernel
  have c2 : binary64.hcvt binary32 md 0xFF800000 = 0xFFF0000000000000 := by cases md <;> decide +kernel
  have hn : binary64.hneg 0x3FF921FB54442D18 = 0xBFF921FB54442D18 := by decide +kernel
  have ap := ap_pi2 md
  have k : ∀ A : ℝ, |A| = π / 2 → ∀ r, binary64.Finite r → |binary64.val r - A| ≤ ru md * (56 / 100) →
      binary32.Finite (binary32.hcvt binary64 md r) ∧ |binary32.val (binary32.hcvt binary64 md r) - A| ≤ ruf md * 2 := by
    intro A hA r fr er
    obtain ⟨f, e⟩ := cvt_down_near md fr (A := A) (δ := 1 / 2 ^ 40) (by rw [hA]; norm_num at *; linarith) le_rfl (le_trans er (by
      rw [hA]
      have := mul_le_mul_of_nonneg_right (ru_le md) (show (0 : ℝ) ≤ 56 / 100 by norm_num)
      refine le_trans this ?_
      norm_num at *; linarith))
    refine ⟨f, le_trans e ?_⟩
    rw [hA]
    have := mul_le_mul_of_nonneg_left (show 1001 / 1000 * (π / 2) ≤ 199 / 100 by norm_num at *; linarith) hu.le
    linarith
  have hp : |π / 2| = π / 2 := abs_of_pos (by linarith [Real.pi_pos])
  unfold CC.atanFloat
  rw [c1, c2, (atanDouble_inf fused md).1, (atanDouble_inf fused md).2]
  refine ⟨k _ hp _ ap.fin ap.err, k _ (by rw [abs_neg, hp]) _ ?_ ?_⟩
  · rw [← hn]; exact ap.neg.fin
  · rw [← hn]; exact ap.neg.err

/-- the arctangent of a rounded quotient of floats -/
theorem atan_quotF (fused : Bool) (md : Mode) {x y : ℕ} (hx : binary32.Finite x) (hy : binary32.Finite y) (h0 : binary32.val x ≠ 0) :
    binary32.Finite (CC.atanFloat fused md (binary32.hdiv md y x)) ∧
      |binary32.val (CC.atanFloat fused md (binary32.hdiv md y x)) - arctan (binary32.val y / binary32.val x)| ≤
        ruf md * (261 / 100 * |arctan (binary32.val y / binary32.val x)|) + 3 * etaf := by
  have R := binary32.hdiv_spec md hy hx h0
  generalize binary32.hdiv md y x = r at *
  generalize binary32.val y / binary32.val x = q at *
  have hu := ruf_pos md
  have hu2 := ruf_le md
  have hu3 := ruf_ge md
  have hη := etaf_le
  have hη0 := etaf_pos
  have hη9 : etaf ≤ ruf md * (1 / 10 ^ 9) := by
    have a : (1 : ℝ) / 2 ^ 100 ≤ 1 / 2 ^ 24 * (1 / 10 ^ 9) := by norm_num
    have b := mul_le_mul_of_nonneg_right hu3 (show (0 : ℝ) ≤ 1 / 10 ^ 9 by norm_num)
    linarith
  have A0 := abs_nonneg (arctan q)
  have fin : ∀ δ : ℝ, binary32.Finite r → |arctan (binary32.val r) - arctan q| ≤ ruf md * (δ * |arctan q|) + etaf → 0 ≤ δ → δ ≤ 16 / 10 →
      binary32.Finite (CC.atanFloat fused md r) ∧ |binary32.val (CC.atanFloat fused md r) - arctan q| ≤ ruf md * (261 / 100 * |arctan q|) + 3 * etaf := by
    intro δ fr k hδ hδ2
    obtain ⟨f1, e1⟩ := atanFloat_spec fused md fr
    refine ⟨f1, le_trans (abs_tri e1 k) ?_⟩
    have k1 : ruf md * (δ * |arctan q|) ≤ ruf md * (16 / 10 * |arctan q|) := mul_le_mul_of_nonneg_left (mul_le_mul_of_nonneg_right hδ2 A0) hu.le
    have k2 := abs_near k le_rfl
    have k3 : ruf md * (16 / 10 * |arctan q|) ≤ 1 / 10 ^ 6 * (16 / 10 * |arctan q|) := mul_le_mul_of_nonneg_right (le_trans hu2 (by norm_num)) (by positivity)
    have k4 : 1001 / 1000 * |arctan (binary32.val r)| ≤ 1002 / 1000 * |arctan q| + 2 * etaf := by norm_num at k3; linarith
    have k5 := mul_le_mul_of_nonneg_left k4 hu.le
    have k6 : ruf md * (2 * etaf) ≤ etaf := by
      have := mul_le_mul_of_nonneg_right (le_trans hu2 (show (1 : ℝ) / 2 ^ 23 ≤ 1 / 2 by norm_num)) (show 0 ≤ 2 * etaf by linarith)
      linarith
    have e1 : ruf md * (1002 / 1000 * |arctan q| + 2 * etaf) = ruf md * (1002 / 1000 * |arctan q|) + ruf md * (2 * etaf) := by ring
    have e2 : ruf md * (261 / 100 * |arctan q|) = ruf md * (1002 / 1000 * |arctan q|) + ruf md * (16 / 10 * |arctan q|) + ruf md * (8 / 1000 * |arctan q|) := by ring
    have e3 : 0 ≤ ruf md * (8 / 1000 * |arctan q|) := by positivity
    linarith
  rcases le_or_gt |q| ((2 : ℝ) ^ (127 : ℤ)) with hq | hq
  · obtain ⟨fr, er⟩ := err32m R (le_trans hq (by rw [maxFin32]; norm_num))
    have er' : |binary32.val r - q| ≤ ruf md * |q| + etaf := le_trans er (by
      have : hf md ≤ 1 := by unfold hf; split_ifs <;> norm_num
      have := mul_le_mul_of_nonneg_right this hη0.le
      linarith)
    exact fin (16 / 10) fr (arctan_nearF hu hu2 hη9 hη0.le er') (by norm_num) le_rfl
  · have h100 : (2 : ℝ) ^ (100 : ℤ) ≤ (2 : ℝ) ^ (127 : ℤ) := two_zpow_le (by norm_num)
    have hpi1 := Real.pi_gt_d20
    have hpi2 := Real.pi_lt_d20
    have c100 : (1 : ℝ) / 2 ^ 100 ≤ 1 / 2 ^ 24 * (1 / 10) := by norm_num
    have hu10 := mul_le_mul_of_nonneg_right hu3 (show (0 : ℝ) ≤ 1 / 10 by norm_num)
    have c1 : (1 : ℝ) / 2 ^ 100 ≤ ruf md * (1 / 10) := by linarith
    have c2 : (1 : ℝ) / 2 ^ 100 ≤ 1 / 10 := by norm_num
    rcases lt_abs.1 hq with hq | hq
    · have hq1 := hq.le
      have k := arctan_hugeF (le_trans h100 hq1)
      have hA : 14 / 10 ≤ |arctan q| := by
        have := (abs_le.1 k).1
        refine le_trans ?_ (le_abs_self _)
        norm_num at *; linarith
      rw [abs_sub_comm] at k
      rcases round_hugeF R hq1 with h | ⟨f1, h1⟩
      · rw [h]
        obtain ⟨f2, e2⟩ := (atanFloat_inf_near fused md).1
        refine ⟨f2, le_trans (abs_tri e2 k) ?_⟩
        have := mul_le_mul_of_nonneg_left (show 21 / 10 ≤ 261 / 100 * |arctan q| by linarith) hu.le
        linarith
      · have k1 := arctan_hugeF h1
        refine fin 1 f1 (le_trans (abs_tri k1 k) ?_) (by norm_num) (by norm_num)
        have := mul_le_mul_of_nonneg_left (show 2 / 10 ≤ 1 * |arctan q| by linarith) hu.le
        linarith
    · have hq1 := hq.le
      have k := arctan_hugeF (le_trans h100 hq1)
      have hA : 14 / 10 ≤ |arctan q| := by
        have := (abs_le.1 k).1
        rw [Real.arctan_neg] at this
        refine le_trans ?_ (neg_le_abs _)
        norm_num at *; linarith
      rw [Real.arctan_neg, show -arctan q - π / 2 = -(π / 2) - arctan q by ring] at k
      rcases round_huge_negF R (le_neg.1 hq1) with h | ⟨f1, h1⟩
      · rw [h]
        obtain ⟨f2, e2⟩ := (atanFloat_inf_near fused md).2
        refine ⟨f2, le_trans (abs_tri e2 k) ?_⟩
        have := mul_le_mul_of_nonneg_left (show 21 / 10 ≤ 261 / 100 * |arctan q| by linarith) hu.le
        linarith
      · have k1 := arctan_hugeF (a := -binary32.val r) (le_neg.1 h1)
        rw [Real.arctan_neg, show -arctan (binary32.val r) - π / 2 = -(arctan (binary32.val r) - -(π / 2)) by ring, abs_neg] at k1
        refine fin 1 f1 (le_trans (abs_tri k1 k) ?_) (by norm_num) (by norm_num)
        have := mul_le_mul_of_nonneg_left (show 2 / 10 ≤ 1 * |arctan q| by linarith) hu.le
        linarith

end Verif
