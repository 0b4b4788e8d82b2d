import Verif.Lemmas.SinCos

/-!
# Lemmas for double sine and cosine: kernels and recombination
-/

namespace Verif
open Fmt

/-- the real part of the analysis of `s1` -/
theorem s1_aux {u η y q y3 sp s P : ℝ} (hu : 0 < u) (hu2 : u ≤ 1 / 2 ^ 52) (hη : 0 < η) (hη2 : η ≤ u / 2 ^ 100) (hy : |y| ≤ 1 / 5)
    (hq : |q - y ^ 2| ≤ u * |y ^ 2| + η) (h3 : |y3 - q * y| ≤ u * |q * y| + η) (hsp : |sp - P| ≤ 17 / 100 * u) (hP : |P| ≤ 168 / 1000)
    (hs : |s - (y3 * sp + y)| ≤ u * |y3 * sp + y| + (1 + 1 / 2 ^ 50) * u * |y3 * sp| + 3 * η) :
    |s - (y + y ^ 3 * P)| ≤ 104 / 100 * u * |y| + 6 * η := by
  have hy0 := abs_nonneg y
  have hQ : |y ^ 2| ≤ 4 / 100 := by rw [abs_pow]; exact le_trans (pow_le_pow_left₀ (abs_nonneg _) hy 2) (by norm_num)
  have hη3 : η ≤ 1 / 2 ^ 100 := by
    have : u / 2 ^ 100 ≤ 1 / 2 ^ 100 := div_le_div_of_nonneg_right (le_trans hu2 (by norm_num)) (by positivity)
    linarith
  have a1 : u * |y ^ 2| ≤ u * (4 / 100) := mul_le_mul_of_nonneg_left hQ hu.le
  have hqb : |q| ≤ 41 / 1000 := by
    refine le_trans (abs_near hq hQ) ?_
    have : (1 : ℝ) / 2 ^ 52 * (4 / 100) + 1 / 2 ^ 100 ≤ 1 / 1000 := by norm_num
    have : u * (4 / 100) ≤ 1 / 2 ^ 52 * (4 / 100) := mul_le_mul_of_nonneg_right hu2 (by norm_num)
    linarith
  have a2 : |q * y| ≤ 41 / 1000 * |y| := abs_mul_le hqb le_rfl
  have a3 : |y3 - y ^ 3| ≤ 81 / 1000 * u * |y| + 2 * η := by
    have e : |q * y - y ^ 3| ≤ (u * (4 / 100) + η) * |y| := by
      have : q * y - y ^ 3 = (q - y ^ 2) * y := by ring
      rw [this]; exact abs_mul_le (le_trans hq (by linarith)) le_rfl
    have := abs_tri h3 e
    have h1 : u * |q * y| ≤ u * (41 / 1000 * |y|) := mul_le_mul_of_nonneg_left a2 hu.le
    have h2 : η * |y| ≤ η := by
      have := mul_le_mul_of_nonneg_left (le_trans hy (by norm_num : (1 : ℝ) / 5 ≤ 1)) hη.le
      linarith
    have e2 : u * (41 / 1000 * |y|) + (u * (4 / 100) + η) * |y| = 81 / 1000 * u * |y| + η * |y| := by ring
    linarith
  have b1 : |sp| ≤ 17 / 100 := by
    refine le_trans (abs_near hsp hP) ?_
    have : 17 / 100 * u ≤ 17 / 100 * (1 / 2 ^ 52) := mul_le_mul_of_nonneg_left hu2 (by norm_num)
    have : (17 : ℝ) / 100 * (1 / 2 ^ 52) ≤ 1 / 1000 := by norm_num
    linarith
  have b2 : |y ^ 3| ≤ 4 / 100 * |y| := by
    have : y ^ 3 = y ^ 2 * y := by ring
    rw [this]; exact abs_mul_le hQ le_rfl
  have b3 : |y3 * sp - y ^ 3 * P| ≤ (81 / 1000 * u * |y| + 2 * η) * (17 / 100) + 4 / 100 * |y| * (17 / 100 * u) := by
    have : y3 * sp - y ^ 3 * P = (y3 - y ^ 3) * sp + y ^ 3 * (sp - P) := by ring
    rw [this]; exact abs_add_le' (abs_mul_le a3 b1) (abs_mul_le b2 hsp)
  have b4 : |y3| ≤ 41 / 1000 * |y| + 2 * η := by
    refine le_trans (abs_near a3 b2) ?_
    have : 81 / 1000 * u * |y| ≤ 1 / 1000 * |y| := mul_le_mul_of_nonneg_right (by
      have : 81 / 1000 * u ≤ 81 / 1000 * (1 / 2 ^ 52) := mul_le_mul_of_nonneg_left hu2 (by norm_num)
      have : (81 : ℝ) / 1000 * (1 / 2 ^ 52) ≤ 1 / 1000 := by norm_num
      linarith) hy0
    linarith
  have b5 : |y3 * sp| ≤ (41 / 1000 * |y| + 2 * η) * (17 / 100) := abs_mul_le b4 b1
  have b6 := abs_add_le' b5 (le_refl |y|)
  have c1 := mul_le_mul_of_nonneg_left b6 hu.le
  have c2 := mul_le_mul_of_nonneg_left b5 (by positivity : 0 ≤ (1 + 1 / 2 ^ 50) * u)
  have e : y3 * sp + y - (y + y ^ 3 * P) = y3 * sp - y ^ 3 * P := by ring
  rw [← e] at b3
  have := abs_tri hs b3
  refine le_trans this ?_
  have k1 : 0 ≤ u * |y| := by positivity
  have k2 : u * η ≤ 1 / 2 ^ 52 * η := mul_le_mul_of_nonneg_right hu2 hη.le
  have k3 : 0 ≤ u * η := by positivity
  nlinarith

/-- the real part of the analysis of `c1` -/
theorem c1_aux {u η y q cp c P : ℝ} (hu : 0 < u) (hu2 : u ≤ 1 / 2 ^ 52) (hη : 0 < η) (hη2 : η ≤ u / 2 ^ 100) (hy : |y| ≤ 1 / 5)
    (hq : |q - y ^ 2| ≤ 41 / 1000 * u) (hcp : |cp - P| ≤ 51 / 100 * u) (hP : |P| ≤ 502 / 1000)
    (hs : |c - (q * cp + 1)| ≤ u * |q * cp + 1| + (1 + 1 / 2 ^ 50) * u * |q * cp| + 3 * η) :
    |c - (1 + y ^ 2 * P)| ≤ 109 / 100 * u := by
  have hQ : |y ^ 2| ≤ 4 / 100 := by rw [abs_pow]; exact le_trans (pow_le_pow_left₀ (abs_nonneg _) hy 2) (by norm_num)
  have hqb : |q| ≤ 401 / 10000 := by
    refine le_trans (abs_near hq hQ) ?_
    have : (41 : ℝ) / 1000 * (1 / 2 ^ 52) ≤ 1 / 10000 := by norm_num
    linarith
  have hcb : |cp| ≤ 503 / 1000 := by
    refine le_trans (abs_near hcp hP) ?_
    have : (51 : ℝ) / 100 * (1 / 2 ^ 52) ≤ 1 / 1000 := by norm_num
    linarith
  have a1 := abs_mul_le hqb hcb
  have a2 : |q * cp + 1 - (1 + y ^ 2 * P)| ≤ 401 / 10000 * (51 / 100 * u) + 41 / 1000 * u * (502 / 1000) := by
    have : q * cp + 1 - (1 + y ^ 2 * P) = q * (cp - P) + (q - y ^ 2) * P := by ring
    rw [this]; exact abs_add_le' (abs_mul_le hqb hcp) (abs_mul_le hq hP)
  have a3 := abs_add_le' a1 (by norm_num : |(1 : ℝ)| ≤ 1)
  have c1 := mul_le_mul_of_nonneg_left a3 hu.le
  have c2 := mul_le_mul_of_nonneg_left a1 (by positivity : 0 ≤ (1 + 1 / 2 ^ 50) * u)
  have := abs_tri hs a2
  have h7 : 3 * η ≤ 1 / 2 ^ 50 * u := by
    have : 3 * (u / 2 ^ 100) ≤ 1 / 2 ^ 50 * u := by
      have : 3 * (u / 2 ^ 100) = 3 / 2 ^ 100 * u := by ring
      rw [this]; exact mul_le_mul_of_nonneg_right (by norm_num) hu.le
    linarith
  linarith

/-- `s1` and `c1` of the kernel -/
theorem kernel64 (fused : Bool) (md : Mode) {y q sp cp y3 c1 s1 : ℕ} (fy : binary64.Finite y) (hy : |binary64.val y| ≤ 1 / 5)
    (hq : q = binary64.hmul md y y)
    (hsp : sp = CC.multiplyAdd binary64 fused md q (CC.multiplyAdd binary64 fused md q (CC.multiplyAdd binary64 fused md q
      (CC.multiplyAdd binary64 fused md q (CC.sinPoly.getD 5 0) (CC.sinPoly.getD 4 0)) (CC.sinPoly.getD 3 0)) (CC.sinPoly.getD 2 0)) (CC.sinPoly.getD 1 0))
    (hcp : cp = CC.multiplyAdd binary64 fused md q (CC.multiplyAdd binary64 fused md q (CC.multiplyAdd binary64 fused md q
      (CC.multiplyAdd binary64 fused md q (CC.cosPoly.getD 5 0) (CC.cosPoly.getD 4 0)) (CC.cosPoly.getD 3 0)) (CC.cosPoly.getD 2 0)) (CC.cosPoly.getD 1 0))
    (hy3 : y3 = binary64.hmul md q y) (hc1 : c1 = CC.multiplyAdd binary64 fused md q cp (CC.pow2 binary64 false 0))
    (hs1 : s1 = CC.multiplyAdd binary64 fused md y3 sp y) :
    binary64.Finite s1 ∧ |binary64.val s1 - Real.sin (binary64.val y)| ≤ 11 / 10 * ru md * |binary64.val y| + 6 * eta ∧
    binary64.Finite c1 ∧ |binary64.val c1 - Real.cos (binary64.val y)| ≤ 17 / 10 * ru md := by
  have hu := ru_pos md
  have hu2 := ru_le md
  have hu3 := ru_ge md
  have hη := eta_pos
  have hη2 := eta_ru md
  set Y := binary64.val y
  have hQ : |Y ^ 2| ≤ 4 / 100 := by rw [abs_pow]; exact le_trans (pow_le_pow_left₀ (abs_nonneg _) hy 2) (by norm_num)
  have hη3 : eta ≤ 1 / 2 ^ 100 := by
    have : ru md / 2 ^ 100 ≤ 1 / 2 ^ 100 := div_le_div_of_nonneg_right (le_trans hu2 (by norm_num)) (by positivity)
    linarith
  have hYY : Y * Y = Y ^ 2 := by ring
  obtain ⟨fq, eq⟩ := mul64_err md fy fy (by change |Y * Y| ≤ _; rw [hYY]; exact le_trans hQ (by norm_num))
  rw [← hq] at fq eq
  change |_ - Y * Y| ≤ _ * |Y * Y| + _ at eq
  rw [hYY] at eq
  have eq' : |binary64.val q - Y ^ 2| ≤ 41 / 1000 * ru md := by
    refine le_trans eq ?_
    have : ru md * |Y ^ 2| ≤ ru md * (4 / 100) := mul_le_mul_of_nonneg_left hQ hu.le
    have : ru md / 2 ^ 100 ≤ 1 / 1000 * ru md := by
      rw [div_eq_mul_one_div, mul_comm]; exact mul_le_mul_of_nonneg_right (by norm_num) hu.le
    linarith
  have hqb : |binary64.val q| ≤ 1 := by
    refine le_trans (abs_near eq' hQ) ?_
    have : (41 : ℝ) / 1000 * (1 / 2 ^ 52) ≤ 1 / 10000 := by norm_num
    linarith
  obtain ⟨fsp, esp, bsp⟩ := sp_float fused md fq eq' hQ sp hsp
  obtain ⟨fcp, ecp, bcp⟩ := cp_float fused md fq eq' hQ cp hcp
  have hspb : |binary64.val sp| ≤ 1 := by
    refine le_trans (abs_near esp bsp) ?_
    have : (17 : ℝ) / 100 * (1 / 2 ^ 52) ≤ 1 / 1000 := by norm_num
    linarith
  have hcpb : |binary64.val cp| ≤ 1 := by
    refine le_trans (abs_near ecp bcp) ?_
    have : (51 : ℝ) / 100 * (1 / 2 ^ 52) ≤ 1 / 1000 := by norm_num
    linarith
  have hqy := abs_mul_le hqb hy
  obtain ⟨f3, e3⟩ := mul64_err md fq fy (le_trans hqy (by norm_num))
  rw [← hy3] at f3 e3
  have hy3b : |binary64.val y3| ≤ 1 := by
    refine le_trans (abs_near e3 hqy) ?_
    have h1 : ru md * |binary64.val q * binary64.val y| ≤ 1 / 2 ^ 52 * (1 * (1 / 5)) := mul_le_mul hu2 hqy (abs_nonneg _) (by positivity)
    have : 1 * ((1 : ℝ) / 5) + (1 / 2 ^ 52 * (1 * (1 / 5)) + 1 / 2 ^ 100) ≤ 1 := by norm_num
    linarith
  obtain ⟨q1, q2⟩ := pow2_64 false 0 (by norm_num) (by norm_num)
  rw [sg_false, one_mul, zpow_zero] at q2
  obtain ⟨fs, es⟩ := ma64_err fused md f3 fsp fy (le_trans (abs_mul_le hy3b hspb) (by norm_num)) (le_trans hy (by norm_num))
  rw [← hs1] at fs es
  obtain ⟨fc, ec⟩ := ma64_err fused md fq fcp q1 (le_trans (abs_mul_le hqb hcpb) (by norm_num)) (by rw [q2]; norm_num)
  rw [← hc1] at fc ec
  rw [q2] at ec
  have s2 := s1_aux hu hu2 hη hη2 hy eq e3 esp bsp es
  have c2 := c1_aux hu hu2 hη hη2 hy eq' ecp bcp ec
  have s3 := abs_tri s2 (SP_spec hy)
  have c3 := abs_tri c2 (CP_spec hy)
  refine ⟨fs, le_trans s3 ?_, fc, le_trans c3 ?_⟩
  · have : (3 : ℝ) / 10 ^ 18 * |Y| ≤ 6 / 100 * ru md * |Y| := mul_le_mul_of_nonneg_right (by
      have : (3 : ℝ) / 10 ^ 18 ≤ 6 / 100 * (1 / 2 ^ 53) := by norm_num
      linarith) (abs_nonneg _)
    linarith
  · have : (65 : ℝ) / 10 ^ 18 ≤ 60 / 100 * (1 / 2 ^ 53) := by norm_num
    linarith

end Verif
