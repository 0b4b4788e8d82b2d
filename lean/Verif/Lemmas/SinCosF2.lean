import Verif.Lemmas.SinCosF

/-!
# Lemmas for float sine and cosine: kernels and recombination
-/

namespace Verif
open Fmt

theorem s1f_aux {u η y q y3 sp s P : ℝ} (hu : 0 < u) (hu2 : u ≤ 1 / 2 ^ 23) (hη : 0 < η) (hη2 : η ≤ u / 2 ^ 100) (hy : |y| ≤ 1 / 4)
    (hq : |q - y ^ 2| ≤ u * |y ^ 2| + η) (h3 : |y3 - q * y| ≤ u * |q * y| + η) (hsp : |sp - P| ≤ 18 / 100 * u) (hP : |P| ≤ 168 / 1000)
    (hs : |s - (y3 * sp + y)| ≤ u * |y3 * sp + y| + (1 + 1 / 2 ^ 20) * u * |y3 * sp| + 3 * η) :
    |s - (y + y ^ 3 * P)| ≤ 107 / 100 * u * |y| + 6 * η := by
  have hy0 := abs_nonneg y
  have hQ : |y ^ 2| ≤ 1 / 16 := by rw [abs_pow]; exact le_trans (pow_le_pow_left₀ (abs_nonneg _) hy 2) (by norm_num)
  have hη3 : η ≤ 1 / 2 ^ 100 := by
    have : u / 2 ^ 100 ≤ 1 / 2 ^ 100 := div_le_div_of_nonneg_right (le_trans hu2 (by norm_num)) (by positivity)
    linarith
  have a1 : u * |y ^ 2| ≤ u * (1 / 16) := mul_le_mul_of_nonneg_left hQ hu.le
  have hqb : |q| ≤ 63 / 1000 := by
    refine le_trans (abs_near hq hQ) ?_
    have : (1 : ℝ) / 16 + (1 / 2 ^ 23 * (1 / 16) + 1 / 2 ^ 100) ≤ 63 / 1000 := by norm_num
    have : u * (1 / 16) ≤ 1 / 2 ^ 23 * (1 / 16) := mul_le_mul_of_nonneg_right hu2 (by norm_num)
    linarith
  have a2 : |q * y| ≤ 63 / 1000 * |y| := abs_mul_le hqb le_rfl
  have a3 : |y3 - y ^ 3| ≤ 126 / 1000 * u * |y| + 2 * η := by
    have e : |q * y - y ^ 3| ≤ (u * (1 / 16) + η) * |y| := by
      have : q * y - y ^ 3 = (q - y ^ 2) * y := by ring
      rw [this]; exact abs_mul_le (le_trans hq (by linarith)) le_rfl
    have := abs_tri h3 e
    have h1 : u * |q * y| ≤ u * (63 / 1000 * |y|) := mul_le_mul_of_nonneg_left a2 hu.le
    have h2 : η * |y| ≤ η := by
      have := mul_le_mul_of_nonneg_left (le_trans hy (by norm_num : (1 : ℝ) / 4 ≤ 1)) hη.le
      linarith
    have k : 0 ≤ u * |y| := by positivity
    have e2 : u * (63 / 1000 * |y|) + (u * (1 / 16) + η) * |y| = 1255 / 10000 * (u * |y|) + η * |y| := by ring
    linarith
  have b1 : |sp| ≤ 17 / 100 := by
    refine le_trans (abs_near hsp hP) ?_
    have : 18 / 100 * u ≤ 18 / 100 * (1 / 2 ^ 23) := mul_le_mul_of_nonneg_left hu2 (by norm_num)
    have : (18 : ℝ) / 100 * (1 / 2 ^ 23) ≤ 1 / 1000 := by norm_num
    linarith
  have b2 : |y ^ 3| ≤ 1 / 16 * |y| := by
    have : y ^ 3 = y ^ 2 * y := by ring
    rw [this]; exact abs_mul_le hQ le_rfl
  have b3 : |y3 * sp - y ^ 3 * P| ≤ (126 / 1000 * u * |y| + 2 * η) * (17 / 100) + 1 / 16 * |y| * (18 / 100 * u) := by
    have : y3 * sp - y ^ 3 * P = (y3 - y ^ 3) * sp + y ^ 3 * (sp - P) := by ring
    rw [this]; exact abs_add_le' (abs_mul_le a3 b1) (abs_mul_le b2 hsp)
  have b4 : |y3| ≤ 63 / 1000 * |y| + 2 * η := by
    refine le_trans (abs_near a3 b2) ?_
    have : 126 / 1000 * u * |y| ≤ 1 / 10000 * |y| := mul_le_mul_of_nonneg_right (by
      have : 126 / 1000 * u ≤ 126 / 1000 * (1 / 2 ^ 23) := mul_le_mul_of_nonneg_left hu2 (by norm_num)
      have : (126 : ℝ) / 1000 * (1 / 2 ^ 23) ≤ 1 / 10000 := by norm_num
      linarith) hy0
    linarith
  have b5 : |y3 * sp| ≤ (63 / 1000 * |y| + 2 * η) * (17 / 100) := abs_mul_le b4 b1
  have b6 := abs_add_le' b5 (le_refl |y|)
  have c1 := mul_le_mul_of_nonneg_left b6 hu.le
  have c2 := mul_le_mul_of_nonneg_left b5 (by positivity : 0 ≤ (1 + 1 / 2 ^ 20) * u)
  have e : y3 * sp + y - (y + y ^ 3 * P) = y3 * sp - y ^ 3 * P := by ring
  rw [← e] at b3
  have := abs_tri hs b3
  refine le_trans this ?_
  have k1 : 0 ≤ u * |y| := by positivity
  have k2 : u * η ≤ 1 / 2 ^ 23 * η := mul_le_mul_of_nonneg_right hu2 hη.le
  nlinarith

theorem polyf_s {Q : ℝ} (h0 : 0 ≤ Q) (h1 : Q ≤ 1 / 16) : |Q * (0x888889 / 2 ^ 30) + -(0xaaaaab / 2 ^ 26)| ≤ 168 / 1000 := by
  rw [abs_le]; constructor <;> norm_num <;> linarith

theorem polyf_c {Q : ℝ} (h0 : 0 ≤ Q) (h1 : Q ≤ 1 / 16) : |Q * (0xaa5c5f / 2 ^ 28) + -(0xffffe2 / 2 ^ 25)| ≤ 1 / 2 := by
  rw [abs_le]; constructor <;> norm_num <;> linarith

set_option maxHeartbeats 1000000 in
/-- kernels on a reduced float argument -/
theorem kernel32 (fused : Bool) (md : Mode) {y q sp cp y3 c1 s1 : ℕ} (fy : binary32.Finite y) (hy : |binary32.val y| ≤ 1 / 4)
    (hq : binary32.hmul md y y = q) (hsp : CC.multiplyAdd binary32 fused md q 0x3C088889 0xBE2AAAAB = sp)
    (hcp : CC.multiplyAdd binary32 fused md q 0x3D2A5C5F 0xBEFFFFE2 = cp) (hy3 : binary32.hmul md q y = y3)
    (hc1 : CC.multiplyAdd binary32 fused md q cp (CC.pow2 binary32 false 0) = c1) (hs1 : CC.multiplyAdd binary32 fused md y3 sp y = s1) :
    binary32.Finite s1 ∧ |binary32.val s1 - Real.sin (binary32.val y)| ≤ 19 / 10 * ruf md * |binary32.val y| + 6 * etaf ∧
      binary32.Finite c1 ∧ |binary32.val c1 - Real.cos (binary32.val y)| ≤ 3 * ruf md := by
  have hu := ruf_pos md
  have hu2 := ruf_le md
  have hul := ruf_ge md
  have hη := etaf_pos
  have hη2 := etaf_ruf md
  have hη3 := etaf_le
  have vp5 : binary32.val 0x3C088889 = 0x888889 / 2 ^ 30 := by
    rw [lit32 false 0x888889 30 (by decide +kernel) (by decide +kernel) (by decide +kernel) (by decide +kernel)]; simp [sg]
  have vp3 : binary32.val 0xBE2AAAAB = -(0xaaaaab / 2 ^ 26) := by
    rw [lit32 true 0xaaaaab 26 (by decide +kernel) (by decide +kernel) (by decide +kernel) (by decide +kernel)]; simp [sg]
  have vq4 : binary32.val 0x3D2A5C5F = 0xaa5c5f / 2 ^ 28 := by
    rw [lit32 false 0xaa5c5f 28 (by decide +kernel) (by decide +kernel) (by decide +kernel) (by decide +kernel)]; simp [sg]
  have vq2 : binary32.val 0xBEFFFFE2 = -(0xffffe2 / 2 ^ 25) := by
    rw [lit32 true 0xffffe2 25 (by decide +kernel) (by decide +kernel) (by decide +kernel) (by decide +kernel)]; simp [sg]
  have f5 : binary32.Finite 0x3C088889 := by decide +kernel
  have f3 : binary32.Finite 0xBE2AAAAB := by decide +kernel
  have f4 : binary32.Finite 0x3D2A5C5F := by decide +kernel
  have f2 : binary32.Finite 0xBEFFFFE2 := by decide +kernel
  obtain ⟨f1, v1⟩ := pow2_32 false 0 (by norm_num) (by norm_num)
  have v1 : binary32.val (CC.pow2 binary32 false 0) = 1 := by rw [v1]; simp [sg]
  have htr := sf_trunc hy
  have htc := cf_trunc hy
  have hb4 : |binary32.val y| ≤ 1 := le_trans hy (by norm_num)
  obtain ⟨fq, eq⟩ := mul32_err md fy fy (le_trans (abs_mul_le hy hy) (by norm_num))
  rw [hq] at fq eq
  rw [← sq] at eq
  have hQ : |binary32.val y ^ 2| ≤ 1 / 16 := by rw [abs_pow]; exact le_trans (pow_le_pow_left₀ (abs_nonneg _) hy 2) (by norm_num)
  have bq : |binary32.val q| ≤ 1 / 10 := by
    refine le_trans (abs_near eq hQ) ?_
    have : ruf md * |binary32.val y ^ 2| ≤ 1 / 2 ^ 23 * (1 / 16) := mul_le_mul hu2 hQ (abs_nonneg _) (by positivity)
    have : (1 : ℝ) / 16 + (1 / 2 ^ 23 * (1 / 16) + 1 / 2 ^ 100) ≤ 1 / 10 := by norm_num
    linarith
  have c5 : |binary32.val 0x3C088889| ≤ 1 / 100 := by rw [vp5, abs_of_pos (by positivity)]; norm_num
  have c3 : |binary32.val 0xBE2AAAAB| ≤ 167 / 1000 := by rw [vp3, abs_neg, abs_of_pos (by positivity)]; norm_num
  have c4 : |binary32.val 0x3D2A5C5F| ≤ 42 / 1000 := by rw [vq4, abs_of_pos (by positivity)]; norm_num
  have c2 : |binary32.val 0xBEFFFFE2| ≤ 1 / 2 := by rw [vq2, abs_neg, abs_of_pos (by positivity)]; norm_num
  obtain ⟨fsp, esp⟩ := ma32_err fused md fq f5 f3 (le_trans (abs_mul_le bq c5) (by norm_num)) (le_trans c3 (by norm_num))
  obtain ⟨fcp, ecp⟩ := ma32_err fused md fq f4 f2 (le_trans (abs_mul_le bq c4) (by norm_num)) (le_trans c2 (by norm_num))
  rw [hsp] at fsp esp
  rw [hcp] at fcp ecp
  have gsp := hstepf hu hu2 hη hη2 eq hQ c5 c3 esp
  have gcp := hstepf hu hu2 hη hη2 eq hQ c4 c2 ecp
  have small : etaf ≤ 1 / 1000 * ruf md := by
    refine le_trans hη2 ?_
    have : ruf md / 2 ^ 100 = 1 / 2 ^ 100 * ruf md := by ring
    rw [this]; exact mul_le_mul_of_nonneg_right (by norm_num) hu.le
  have gsp' : |binary32.val sp - (binary32.val y ^ 2 * binary32.val 0x3C088889 + binary32.val 0xBE2AAAAB)| ≤ 18 / 100 * ruf md := by
    refine le_trans gsp ?_; linarith
  have gcp' : |binary32.val cp - (binary32.val y ^ 2 * binary32.val 0x3D2A5C5F + binary32.val 0xBEFFFFE2)| ≤ 51 / 100 * ruf md := by
    refine le_trans gcp ?_; linarith
  -- polynomial values
  have hQ0 : 0 ≤ binary32.val y ^ 2 := sq_nonneg _
  have hQ1 : binary32.val y ^ 2 ≤ 1 / 16 := le_trans (le_abs_self _) hQ
  have bP : |binary32.val y ^ 2 * binary32.val 0x3C088889 + binary32.val 0xBE2AAAAB| ≤ 168 / 1000 := by
    rw [vp5, vp3]; exact polyf_s hQ0 hQ1
  have bC : |binary32.val y ^ 2 * binary32.val 0x3D2A5C5F + binary32.val 0xBEFFFFE2| ≤ 1 / 2 := by
    rw [vq4, vq2]; exact polyf_c hQ0 hQ1
  have bsp : |binary32.val sp| ≤ 1 := by
    refine le_trans (abs_near gsp' bP) ?_
    have : (18 : ℝ) / 100 * (1 / 2 ^ 23) ≤ 1 / 10 := by norm_num
    linarith
  have bcp : |binary32.val cp| ≤ 51 / 100 := by
    refine le_trans (abs_near gcp' bC) ?_
    have : (51 : ℝ) / 100 * (1 / 2 ^ 23) ≤ 1 / 100 := by norm_num
    linarith
  obtain ⟨fy3, ey3⟩ := mul32_err md fq fy (le_trans (abs_mul_le bq hy) (by norm_num))
  rw [hy3] at fy3 ey3
  have by3 : |binary32.val y3| ≤ 1 := by
    refine le_trans (abs_near ey3 (abs_mul_le bq hy)) ?_
    have h1 : ruf md * |binary32.val q * binary32.val y| ≤ 1 / 2 ^ 23 * (1 / 10 * (1 / 4)) := mul_le_mul hu2 (abs_mul_le bq hy) (abs_nonneg _) (by positivity)
    have : (1 : ℝ) / 10 * (1 / 4) + (1 / 2 ^ 23 * (1 / 10 * (1 / 4)) + 1 / 2 ^ 100) ≤ 1 := by norm_num
    linarith
  obtain ⟨fs1, es1⟩ := ma32_err fused md fy3 fsp fy (le_trans (abs_mul_le by3 bsp) (by norm_num)) (le_trans hb4 (by norm_num))
  rw [hs1] at fs1 es1
  obtain ⟨fc1, ec1⟩ := ma32_err fused md fq fcp f1 (le_trans (abs_mul_le bq bcp) (by norm_num)) (by rw [v1, abs_one]; norm_num)
  rw [hc1, v1] at ec1
  rw [hc1] at fc1
  refine ⟨fs1, ?_, fc1, ?_⟩
  · have g := s1f_aux hu hu2 hη hη2 hy eq ey3 gsp' bP es1
    rw [vp5, vp3, ← sub_eq_add_neg] at g
    refine le_trans (abs_tri g htr) ?_
    have : 83 / 100 * (1 / 2 ^ 24) * |binary32.val y| ≤ 83 / 100 * ruf md * |binary32.val y| :=
      mul_le_mul_of_nonneg_right (mul_le_mul_of_nonneg_left hul (by norm_num)) (abs_nonneg _)
    linarith
  · have g := hstepf hu hu2 hη hη2 eq hQ bcp (le_of_eq abs_one) ec1
    have g2 : |binary32.val y ^ 2 * binary32.val cp + 1 - (1 + binary32.val y ^ 2 * (binary32.val y ^ 2 * (0xaa5c5f / 2 ^ 28) - 0xffffe2 / 2 ^ 25))| ≤
        1 / 16 * (51 / 100 * ruf md) := by
      rw [vq4, vq2, ← sub_eq_add_neg] at gcp'
      have e : binary32.val y ^ 2 * binary32.val cp + 1 - (1 + binary32.val y ^ 2 * (binary32.val y ^ 2 * (0xaa5c5f / 2 ^ 28) - 0xffffe2 / 2 ^ 25)) =
          binary32.val y ^ 2 * (binary32.val cp - (binary32.val y ^ 2 * (0xaa5c5f / 2 ^ 28) - 0xffffe2 / 2 ^ 25)) := by ring
      rw [e]; exact abs_mul_le hQ gcp'
    refine le_trans (abs_tri (abs_tri g g2) htc) ?_
    linarith

/-- recombination of two products -/
theorem combf_gen {u η A a B b p r : ℝ} (hu : 0 < u) (hu2 : u ≤ 1 / 2 ^ 23) (hη : 0 < η)
    (hp : |p - B * b| ≤ u * |B * b| + η) (hr : |r - (A * a + p)| ≤ u * |A * a + p| + (1 + 1 / 2 ^ 20) * u * |A * a| + 3 * η) :
    |r - (A * a + B * b)| ≤ (2 + 1 / 2 ^ 15) * u * (|A * a| + |B * b|) + 5 * η := by
  have h1 : |A * a + p - (A * a + B * b)| ≤ u * |B * b| + η := by rw [add_sub_add_left_eq_sub]; exact hp
  have h2 : |A * a + p| ≤ |A * a| + |B * b| + (u * |B * b| + η) := abs_near h1 (abs_add_le _ _)
  have h3 := mul_le_mul_of_nonneg_left h2 hu.le
  have h4 := abs_tri hr h1
  refine le_trans h4 ?_
  have k1 : 0 ≤ u * |A * a| := by positivity
  have k2 : 0 ≤ u * |B * b| := by positivity
  have k3 : u * (u * |B * b|) ≤ 1 / 2 ^ 23 * (u * |B * b|) := mul_le_mul_of_nonneg_right hu2 k2
  have k4 : u * η ≤ 1 / 2 ^ 23 * η := mul_le_mul_of_nonneg_right hu2 hη.le
  nlinarith

theorem prodf_near {u A α a a0 e M : ℝ} (hu2 : u ≤ 1 / 2 ^ 23) (hA : |A - α| ≤ u / 2) (hα : |α| ≤ 1) (ha : |a - a0| ≤ e * u) (h0 : |a0| ≤ M) :
    |A * a - α * a0| ≤ (e + M / 2 + e / 2 ^ 20) * u := by
  have hA' : |A| ≤ 1 + 1 / 2 ^ 20 := by
    refine le_trans (abs_near hA hα) ?_
    have : (1 : ℝ) / 2 ^ 23 / 2 ≤ 1 / 2 ^ 20 := by norm_num
    linarith
  have e1 : A * a - α * a0 = A * (a - a0) + (A - α) * a0 := by ring
  rw [e1]
  refine le_trans (abs_add_le' (abs_mul_le hA' ha) (abs_mul_le hA h0)) (le_of_eq ?_)
  ring

/-- absolute error of the recombination -/
theorem combf_abs {u η A a B b p r α β a0 b0 ea eb Ma Mb : ℝ} (hu : 0 < u) (hu2 : u ≤ 1 / 2 ^ 23) (hη : 0 < η) (hη2 : η ≤ u / 2 ^ 100)
    (hA : |A - α| ≤ u / 2) (hα : |α| ≤ 1) (hB : |B - β| ≤ u / 2) (hβ : |β| ≤ 1)
    (ha : |a - a0| ≤ ea * u) (hb : |b - b0| ≤ eb * u) (ha0 : |a0| ≤ Ma) (hb0 : |b0| ≤ Mb) (hea : ea + eb ≤ 4) (hM : Ma + Mb ≤ 5 / 4)
    (hp : |p - B * b| ≤ u * |B * b| + η) (hr : |r - (A * a + p)| ≤ u * |A * a + p| + (1 + 1 / 2 ^ 20) * u * |A * a| + 3 * η) :
    |r - (α * a0 + β * b0)| ≤ (ea + eb + 314 / 100) * u := by
  have p1 := prodf_near hu2 hA hα ha ha0
  have p2 := prodf_near hu2 hB hβ hb hb0
  have g := combf_gen hu hu2 hη hp hr
  have t : |A * a + B * b - (α * a0 + β * b0)| ≤ (ea + Ma / 2 + ea / 2 ^ 20) * u + (eb + Mb / 2 + eb / 2 ^ 20) * u := by
    have : A * a + B * b - (α * a0 + β * b0) = (A * a - α * a0) + (B * b - β * b0) := by ring
    rw [this]; exact abs_add_le' p1 p2
  have m1 : |A * a| ≤ Ma + (ea + Ma / 2 + ea / 2 ^ 20) * u := abs_near p1 (by have := abs_mul_le hα ha0; rwa [one_mul] at this)
  have m2 : |B * b| ≤ Mb + (eb + Mb / 2 + eb / 2 ^ 20) * u := abs_near p2 (by have := abs_mul_le hβ hb0; rwa [one_mul] at this)
  have m3 : |A * a| + |B * b| ≤ 5 / 4 + 1 / 2 ^ 15 := by
    have e : (ea + Ma / 2 + ea / 2 ^ 20) * u + (eb + Mb / 2 + eb / 2 ^ 20) * u = (ea + eb + (Ma + Mb) / 2 + (ea + eb) / 2 ^ 20) * u := by ring
    have : (ea + eb + (Ma + Mb) / 2 + (ea + eb) / 2 ^ 20) * u ≤ 6 * (1 / 2 ^ 23) := mul_le_mul (by linarith) hu2 hu.le (by norm_num)
    have : 6 * ((1 : ℝ) / 2 ^ 23) ≤ 1 / 2 ^ 15 := by norm_num
    linarith
  have m4 := mul_le_mul_of_nonneg_left m3 (by positivity : 0 ≤ (2 + 1 / 2 ^ 15) * u)
  have := abs_tri g t
  refine le_trans this ?_
  have h7 : 5 * η ≤ 1 / 2 ^ 15 * u := by
    have : 5 * (u / 2 ^ 100) ≤ 1 / 2 ^ 15 * u := by
      have : 5 * (u / 2 ^ 100) = 5 / 2 ^ 100 * u := by ring
      rw [this]; exact mul_le_mul_of_nonneg_right (by norm_num) hu.le
    linarith
  have m5 : Ma * u + Mb * u ≤ 5 / 4 * u := by
    have := mul_le_mul_of_nonneg_right hM hu.le
    linarith
  have m6 : ea * u + eb * u ≤ 4 * u := by
    have := mul_le_mul_of_nonneg_right hea hu.le
    linarith
  nlinarith

theorem relf_aux {u η A a a0 y r : ℝ} (hu : 0 < u) (hu2 : u ≤ 1 / 2 ^ 23) (hη : 0 < η) (hA : |A| = 1) (ha0 : |a0| ≤ |y|)
    (ha : |a - a0| ≤ 19 / 10 * u * |y| + 6 * η) (hr : |r - A * a| ≤ (2 + 1 / 2 ^ 15) * u * |A * a| + 5 * η) :
    |r - A * a0| ≤ 391 / 100 * u * |y| + 12 * η := by
  have h1 : |A * a - A * a0| ≤ 19 / 10 * u * |y| + 6 * η := by
    rw [← mul_sub, abs_mul, hA, one_mul]; exact ha
  have h2 : |A * a| ≤ |y| + (19 / 10 * u * |y| + 6 * η) := abs_near h1 (by rw [abs_mul, hA, one_mul]; exact ha0)
  have h3 := mul_le_mul_of_nonneg_left h2 (by positivity : 0 ≤ (2 + 1 / 2 ^ 15) * u)
  have h4 := abs_tri hr h1
  refine le_trans h4 ?_
  have hy := abs_nonneg y
  have k1 : 0 ≤ u * |y| := by positivity
  have k2 : u * (u * |y|) ≤ 1 / 2 ^ 23 * (u * |y|) := mul_le_mul_of_nonneg_right hu2 k1
  have k3 : u * η ≤ 1 / 2 ^ 23 * η := mul_le_mul_of_nonneg_right hu2 hη.le
  nlinarith

/-- sine and cosine kernels on a reduced argument -/
theorem poly32 (fused : Bool) (md : Mode) {k y : ℕ} (fy : binary32.Finite y) (hy : |binary32.val y| ≤ 1 / 4) :
    (binary32.Finite (CC.sincosfPoly true fused md k y) ∧
      |binary32.val (CC.sincosfPoly true fused md k y) - Real.sin (((k % 16 : ℕ) : ℝ) * (Real.pi / 8) + binary32.val y)| ≤ 663 / 100 * ruf md ∧
      (k % 8 = 0 → |binary32.val (CC.sincosfPoly true fused md k y) - Real.sin (((k % 16 : ℕ) : ℝ) * (Real.pi / 8) + binary32.val y)| ≤
        391 / 100 * ruf md * |binary32.val y| + 12 * etaf)) ∧
    (binary32.Finite (CC.sincosfPoly false fused md k y) ∧
      |binary32.val (CC.sincosfPoly false fused md k y) - Real.cos (((k % 16 : ℕ) : ℝ) * (Real.pi / 8) + binary32.val y)| ≤ 663 / 100 * ruf md ∧
      (k % 8 = 4 → |binary32.val (CC.sincosfPoly false fused md k y) - Real.cos (((k % 16 : ℕ) : ℝ) * (Real.pi / 8) + binary32.val y)| ≤
        391 / 100 * ruf md * |binary32.val y| + 12 * etaf)) := by
  have hu := ruf_pos md
  have hu2 := ruf_le md
  have hη := etaf_pos
  have hη2 := etaf_ruf md
  have hη1 : etaf ≤ 1 := le_trans etaf_le (by norm_num)
  have e1 : k &&& 15 = k % 16 := Nat.and_two_pow_sub_one_eq_mod k 4
  have e2 : ((k + 4) % 2 ^ 32) &&& 15 = (k + 4) % 16 := by
    rw [show (15 : ℕ) = 2 ^ 4 - 1 from rfl, Nat.and_two_pow_sub_one_eq_mod, Nat.mod_mod_of_dvd _ (by norm_num)]
  obtain ⟨fS, eS, xS⟩ := sinTabf_spec md (Nat.mod_lt k (by norm_num : 0 < 16))
  obtain ⟨fC, eC, xC⟩ := sinTabf_spec md (Nat.mod_lt (k + 4) (by norm_num : 0 < 16))
  rw [cos_tab] at eC xC
  have hax := @tab_axis k
  have hax' := @tab_axis' k
  unfold CC.sincosfPoly
  simp only [if_true, Bool.false_eq_true, if_false]
  rw [e1, e2]
  generalize CC.sinKPi8f.getD (k % 16) 0 = S at *
  generalize CC.sinKPi8f.getD ((k + 4) % 16) 0 = C at *
  generalize hθ : ((k % 16 : ℕ) : ℝ) * (Real.pi / 8) = θ at *
  obtain ⟨fs, es, fc, ec⟩ := kernel32 fused md fy hy rfl rfl rfl rfl rfl rfl
  generalize CC.multiplyAdd binary32 fused md (binary32.hmul md (binary32.hmul md y y) y) _ y = s1 at *
  generalize CC.multiplyAdd binary32 fused md (binary32.hmul md y y) _ (CC.pow2 binary32 false 0) = c1 at *
  have hsy : |Real.sin (binary32.val y)| ≤ |binary32.val y| := Real.abs_sin_le_abs (x := binary32.val y)
  have hsin1 := Real.abs_sin_le_one θ
  have hcos1 := Real.abs_cos_le_one θ
  have hcy := Real.abs_cos_le_one (binary32.val y)
  have es' : |binary32.val s1 - Real.sin (binary32.val y)| ≤ 48 / 100 * ruf md := by
    refine le_trans es ?_
    have : 19 / 10 * ruf md * |binary32.val y| ≤ 19 / 10 * ruf md * (1 / 4) := mul_le_mul_of_nonneg_left hy (by positivity)
    have : 6 * (ruf md / 2 ^ 100) ≤ 1 / 1000 * ruf md := by
      have : 6 * (ruf md / 2 ^ 100) = 6 / 2 ^ 100 * ruf md := by ring
      rw [this]; exact mul_le_mul_of_nonneg_right (by norm_num) hu.le
    linarith
  have bS : |binary32.val S| ≤ 2 := by
    refine le_trans (abs_near eS hsin1) ?_
    have : (1 : ℝ) / 2 ^ 23 / 2 ≤ 1 := by norm_num
    linarith
  have bC : |binary32.val C| ≤ 2 := by
    refine le_trans (abs_near eC hcos1) ?_
    have : (1 : ℝ) / 2 ^ 23 / 2 ≤ 1 := by norm_num
    linarith
  have bs : |binary32.val s1| ≤ 1 := by
    refine le_trans (abs_near es' (le_trans hsy hy)) ?_
    have : (48 : ℝ) / 100 * (1 / 2 ^ 23) ≤ 1 / 5 := by norm_num
    linarith
  have bc : |binary32.val c1| ≤ 2 := by
    refine le_trans (abs_near ec hcy) ?_
    have : (3 : ℝ) * (1 / 2 ^ 23) ≤ 1 / 5 := by norm_num
    linarith
  refine ⟨?_, ?_⟩
  · -- sine
    have bSc := abs_mul_le bS bc
    obtain ⟨fp, ep⟩ := mul32_err md fS fc (le_trans bSc (by norm_num))
    have bp : |binary32.val (binary32.hmul md S c1)| ≤ 10 := by
      refine le_trans (abs_near ep bSc) ?_
      have h1 : ruf md * |binary32.val S * binary32.val c1| ≤ 1 / 2 ^ 23 * (2 * 2) := mul_le_mul hu2 bSc (abs_nonneg _) (by positivity)
      have : (2 : ℝ) * 2 + (1 / 2 ^ 23 * (2 * 2) + 1) ≤ 10 := by norm_num
      linarith
    obtain ⟨fr, er⟩ := ma32_err fused md fC fs fp (le_trans (abs_mul_le bC bs) (by norm_num)) (le_trans bp (by norm_num))
    have et : Real.sin (θ + binary32.val y) = Real.cos θ * Real.sin (binary32.val y) + Real.sin θ * Real.cos (binary32.val y) := by rw [Real.sin_add]; ring
    rw [et]
    refine ⟨fr, ?_, fun h8 => ?_⟩
    · refine le_trans (combf_abs hu hu2 hη hη2 eC hcos1 eS hsin1 es' ec (le_trans hsy hy) hcy (by norm_num) (by norm_num) ep er) ?_
      exact mul_le_mul_of_nonneg_right (by norm_num) hu.le
    · obtain ⟨z1, z2⟩ := hax h8
      have g := combf_gen hu hu2 hη ep er
      rw [xS (by omega), z1] at g
      rw [xC (by omega)] at g
      rw [z1]
      simp only [zero_mul, add_zero, abs_zero] at g ⊢
      exact relf_aux hu hu2 hη z2 hsy es g
  · -- cosine
    have fS' := binary32.finite_hneg fS
    have bS' : |binary32.val (binary32.hneg S)| ≤ 2 := by rw [binary32.val_hneg, abs_neg]; exact bS
    have eS' : |binary32.val (binary32.hneg S) - -Real.sin θ| ≤ ruf md / 2 := by rw [binary32.val_hneg, neg_sub_neg, abs_sub_comm]; exact eS
    have hsin1' : |-Real.sin θ| ≤ 1 := by rw [abs_neg]; exact hsin1
    have bSs := abs_mul_le bS' bs
    obtain ⟨fp, ep⟩ := mul32_err md fS' fs (le_trans bSs (by norm_num))
    have bp : |binary32.val (binary32.hmul md (binary32.hneg S) s1)| ≤ 10 := by
      refine le_trans (abs_near ep bSs) ?_
      have h1 : ruf md * |binary32.val (binary32.hneg S) * binary32.val s1| ≤ 1 / 2 ^ 23 * (2 * 1) := mul_le_mul hu2 bSs (abs_nonneg _) (by positivity)
      have : (2 : ℝ) * 1 + (1 / 2 ^ 23 * (2 * 1) + 1) ≤ 10 := by norm_num
      linarith
    obtain ⟨fr, er⟩ := ma32_err fused md fC fc fp (le_trans (abs_mul_le bC bc) (by norm_num)) (le_trans bp (by norm_num))
    have et : Real.cos (θ + binary32.val y) = Real.cos θ * Real.cos (binary32.val y) + -Real.sin θ * Real.sin (binary32.val y) := by rw [Real.cos_add]; ring
    rw [et]
    refine ⟨fr, ?_, fun h8 => ?_⟩
    · refine le_trans (combf_abs hu hu2 hη hη2 eC hcos1 eS' hsin1' ec es' hcy (le_trans hsy hy) (by norm_num) (by norm_num) ep er) ?_
      exact mul_le_mul_of_nonneg_right (by norm_num) hu.le
    · obtain ⟨z1, z2⟩ := hax' h8
      have g := combf_gen hu hu2 hη ep er
      rw [binary32.val_hneg, xS (by omega)] at g
      rw [xC (by omega), z1] at g
      rw [z1]
      simp only [zero_mul, zero_add, abs_zero] at g ⊢
      exact relf_aux hu hu2 hη (by rw [abs_neg]; exact z2) hsy es g

end Verif
