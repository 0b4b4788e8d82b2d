import Verif.Lemmas.SinCosF3
import Verif.Props.Trig
import Verif.Lemmas.FpOps

/-!
# Lemmas for float sine and cosine: total error
-/

namespace Verif
open Fmt

/-- a sine away from the multiples of `π` -/
theorem abs_sin_off' {K : ℤ} (h : K % 8 ≠ 0) {Y : ℝ} (hY : |Y| ≤ 0.244) : 0.148 ≤ |Real.sin (K * (Real.pi / 8) + Y)| := by
  obtain ⟨p1, p2⟩ := pi_near
  obtain ⟨y1, y2⟩ := abs_le.1 hY
  have hr : 1 ≤ K % 8 ∧ K % 8 ≤ 7 := by omega
  have e : K = 8 * (K / 8) + K % 8 := by omega
  have e2 : (K : ℝ) * (Real.pi / 8) + Y = (((K % 8 : ℤ) : ℝ) * (Real.pi / 8) + Y) + (K / 8 : ℤ) * Real.pi := by
    have : (K : ℝ) = 8 * ((K / 8 : ℤ) : ℝ) + ((K % 8 : ℤ) : ℝ) := by exact_mod_cast e
    rw [this]; ring
  have e3 : |Real.sin (K * (Real.pi / 8) + Y)| = |Real.sin (((K % 8 : ℤ) : ℝ) * (Real.pi / 8) + Y)| := by
    rw [e2, Real.sin_add_int_mul_pi, abs_mul]
    rcases Int.even_or_odd (K / 8) with h | h
    · rw [h.neg_one_zpow]; simp
    · rw [h.neg_one_zpow]; simp
  rw [e3]
  have r1 : (1 : ℝ) ≤ ((K % 8 : ℤ) : ℝ) := by exact_mod_cast hr.1
  have r2 : ((K % 8 : ℤ) : ℝ) ≤ 7 := by exact_mod_cast hr.2
  generalize ((K % 8 : ℤ) : ℝ) = r at *
  have q1 : 0.1486 ≤ r * (Real.pi / 8) + Y := by nlinarith
  have q2 : r * (Real.pi / 8) + Y ≤ Real.pi - 0.1486 := by nlinarith
  generalize r * (Real.pi / 8) + Y = φ at *
  have hs : 0.148 ≤ Real.sin 0.1486 := by
    have := Real.sin_gt_sub_cube (x := 0.1486) (by norm_num)
    norm_num at this ⊢
    linarith
  refine le_trans hs (le_trans ?_ (le_abs_self _))
  rcases le_total φ (Real.pi / 2) with h | h
  · exact Real.sin_le_sin_of_le_of_le_pi_div_two (by linarith) h q1
  · rw [← Real.sin_pi_sub φ]
    exact Real.sin_le_sin_of_le_of_le_pi_div_two (by linarith) (by linarith) (by linarith)

theorem abs_le_sin' {Y : ℝ} (hY : |Y| ≤ 0.244) : |Y| ≤ 1.011 * |Real.sin Y| := by
  rcases eq_or_ne Y 0 with rfl | h0
  · simp
  have hp := abs_pos.2 h0
  have h1 := Real.sin_gt_sub_cube hp
  have h2 : |Real.sin Y| = |Real.sin (|Y|)| := by
    rcases abs_choice Y with h | h <;> rw [h]
    rw [Real.sin_neg, abs_neg]
  rw [h2]
  have h3 := le_abs_self (Real.sin (|Y|))
  generalize |Y| = t at *
  have : t ^ 3 ≤ 0.244 ^ 2 * t := by nlinarith [mul_le_mul hY hY hp.le (by norm_num : (0:ℝ) ≤ 0.244)]
  nlinarith

theorem coref_abs {u r s1 s Y d : ℝ} (hu : 0 < u) (hul : 1 / 2 ^ 24 ≤ u) (h1 : |r - s1| ≤ 663 / 100 * u) (h2 : |s1 - s| ≤ d)
    (hd : d ≤ (2 + 1 / 2 ^ 6) * u * |Y| + 1 / 2 ^ 40) (hY : |Y| ≤ 0.244) : |r - s| ≤ 7.2 * u := by
  have := abs_tri h1 h2
  have h3 := mul_le_mul_of_nonneg_left hY (by positivity : 0 ≤ (2 + 1 / 2 ^ 6) * u)
  have h4 : (1 : ℝ) / 2 ^ 40 ≤ 1 / 2 ^ 16 * u := by
    have : (1 : ℝ) / 2 ^ 40 = 1 / 2 ^ 16 * (1 / 2 ^ 24) := by norm_num
    linarith
  nlinarith

theorem coref_rel {u η r s1 s y Y d : ℝ} (hu : 0 < u) (hu2 : u ≤ 1 / 2 ^ 23)
    (h1 : |r - s1| ≤ 391 / 100 * u * |y| + 12 * η) (h2 : |s1 - s| ≤ d) (hy : |y - Y| ≤ d)
    (hd : d ≤ 10.1 * u * |Y|) (hs : |Y| ≤ 1.011 * |s|) : |r - s| ≤ 15 * u * |s| + 12 * η := by
  have h3 := abs_tri h1 h2
  have h4 : |y| ≤ |Y| + d := abs_near hy le_rfl
  have h5 := mul_le_mul_of_nonneg_left h4 hu.le
  have h6 : u * d ≤ 1 / 2 ^ 23 * d := mul_le_mul_of_nonneg_right hu2 (le_trans (abs_nonneg _) hy)
  have h7 : u * |Y| ≤ 1.011 * (u * |s|) := by
    have := mul_le_mul_of_nonneg_left hs hu.le
    linarith
  have h8 : 0 ≤ u * |s| := by positivity
  nlinarith

/-- the kernel after a reduction: `k`, `y` represent `X` -/
theorem core32 (fused : Bool) (md : Mode) {k y : ℕ} {K : ℤ} {X : ℝ} (hK : K % 16 = ((k % 16 : ℕ) : ℤ)) (fy : binary32.Finite y)
    (hY : |X - K * (Real.pi / 8)| ≤ 0.244)
    (hy : |binary32.val y - (X - K * (Real.pi / 8))| ≤ (2 + 1 / 2 ^ 6) * ruf md * |X - K * (Real.pi / 8)| + 1 / 2 ^ 40)
    (hyr : K % 4 = 0 → |binary32.val y - (X - K * (Real.pi / 8))| ≤ 10.1 * ruf md * |X - K * (Real.pi / 8)|) :
    (binary32.Finite (CC.sincosfPoly true fused md k y) ∧
      |binary32.val (CC.sincosfPoly true fused md k y) - Real.sin X| ≤ 7.2 * ruf md ∧
      |binary32.val (CC.sincosfPoly true fused md k y) - Real.sin X| ≤ 49 * ruf md * |Real.sin X| + 12 * etaf) ∧
    (binary32.Finite (CC.sincosfPoly false fused md k y) ∧
      |binary32.val (CC.sincosfPoly false fused md k y) - Real.cos X| ≤ 7.2 * ruf md ∧
      |binary32.val (CC.sincosfPoly false fused md k y) - Real.cos X| ≤ 49 * ruf md * |Real.cos X| + 12 * etaf) := by
  have hu := ruf_pos md
  have hu2 := ruf_le md
  have hul := ruf_ge md
  have hη := etaf_pos
  have hyb : |binary32.val y| ≤ 1 / 4 := by
    refine le_trans (abs_near hy hY) ?_
    have : (2 + 1 / 2 ^ 6) * ruf md * |X - K * (Real.pi / 8)| ≤ (2 + 1 / 2 ^ 6) * (1 / 2 ^ 23) * 0.244 :=
      mul_le_mul (mul_le_mul_of_nonneg_left hu2 (by norm_num)) hY (abs_nonneg _) (by norm_num)
    have : (0.244 : ℝ) + ((2 + 1 / 2 ^ 6) * (1 / 2 ^ 23) * 0.244 + 1 / 2 ^ 40) ≤ 1 / 4 := by norm_num
    linarith
  obtain ⟨⟨s1, s2, s3⟩, c1, c2, c3⟩ := poly32 fused md (k := k) fy hyb
  obtain ⟨a1, a2⟩ := sin_congr16 hK (binary32.val y)
  rw [← a1] at s2 s3
  rw [← a2] at c2 c3
  generalize CC.sincosfPoly true fused md k y = rs at *
  generalize CC.sincosfPoly false fused md k y = rc at *
  have eX : X = K * (Real.pi / 8) + (X - K * (Real.pi / 8)) := by ring
  generalize X - K * (Real.pi / 8) = Y at *
  have ds : |Real.sin (K * (Real.pi / 8) + binary32.val y) - Real.sin X| ≤ |binary32.val y - Y| := by
    refine le_trans (abs_sin_sub_le _ _) (le_of_eq ?_)
    rw [eX, add_sub_add_left_eq_sub]
  have dc : |Real.cos (K * (Real.pi / 8) + binary32.val y) - Real.cos X| ≤ |binary32.val y - Y| := by
    refine le_trans (abs_cos_sub_le _ _) (le_of_eq ?_)
    rw [eX, add_sub_add_left_eq_sub]
  have hsA := coref_abs hu hul s2 ds hy hY
  have hcA := coref_abs hu hul c2 dc hy hY
  have off : ∀ {r s : ℝ}, |r - s| ≤ 7.2 * ruf md → 0.148 ≤ |s| → |r - s| ≤ 49 * ruf md * |s| + 12 * etaf := by
    intro r s h1 h2
    have := mul_le_mul_of_nonneg_left h2 (by positivity : 0 ≤ 49 * ruf md)
    linarith
  have on : ∀ {r s : ℝ}, |r - s| ≤ 15 * ruf md * |s| + 12 * etaf → |r - s| ≤ 49 * ruf md * |s| + 12 * etaf := by
    intro r s h1
    have : 0 ≤ ruf md * |s| := by positivity
    linarith
  refine ⟨⟨s1, hsA, ?_⟩, c1, hcA, ?_⟩
  · by_cases h8 : K % 8 = 0
    · refine on (coref_rel hu hu2 (s3 (by omega)) ds le_rfl (hyr (by omega)) ?_)
      rw [eX, abs_sin_axis h8]; exact abs_le_sin' hY
    · refine off hsA ?_
      rw [eX]; exact abs_sin_off' h8 hY
  · have ec : Real.cos X = Real.sin (((K + 4 : ℤ) : ℝ) * (Real.pi / 8) + Y) := by
      rw [← Real.sin_add_pi_div_two]; congr 1; rw [eX]; push_cast; ring
    by_cases h8 : (K + 4) % 8 = 0
    · refine on (coref_rel hu hu2 (c3 (by omega)) dc le_rfl (hyr (by omega)) ?_)
      rw [ec, abs_sin_axis h8]; exact abs_le_sin' hY
    · refine off hcA ?_
      rw [ec]; exact abs_sin_off' h8 hY

theorem axis_arith {K : ℤ} (h : K % 4 = 0) (X : ℝ) : X - K * (Real.pi / 8) = X - ((K / 4 : ℤ) : ℝ) * (Real.pi / 2) := by
  have e : K = 4 * (K / 4) := by omega
  have : (K : ℝ) = 4 * ((K / 4 : ℤ) : ℝ) := by exact_mod_cast e
  rw [this]; ring

/-- the float reduction is relatively accurate on the axes -/
theorem small_axis_f {u X Y k δ : ℝ} (hul : 1 / 2 ^ 24 ≤ u) (hd : k * (Real.pi / 8) ≤ |X| + 0.244) (hk : 4 ≤ k)
    (hY : 1 / 2 ^ 43 * |X| * (Real.pi / 2) ≤ |Y|) (hY2 : 1 / 2 ^ 30 * (Real.pi / 2) ≤ |Y|) (hδ : δ = 1 / 2 ^ 65 ∨ (δ = 1 / 2 ^ 61 ∧ k ≤ 80)) :
    k * δ ≤ 8 * u * |Y| := by
  obtain ⟨p1, p2⟩ := pi_near
  have hk2 : k * 0.3926 ≤ k * (Real.pi / 8) := mul_le_mul_of_nonneg_left (by linarith) (by linarith)
  have hX : 0 ≤ |X| := abs_nonneg X
  have hu8 : 8 * (1 / 2 ^ 24) * |Y| ≤ 8 * u * |Y| := mul_le_mul_of_nonneg_right (by linarith) (abs_nonneg _)
  refine le_trans ?_ hu8
  rcases hδ with rfl | ⟨rfl, h64⟩
  · have hX1 : 1.32 ≤ |X| := by linarith
    have h1 : 1 / 2 ^ 43 * |X| * 1.57 ≤ 1 / 2 ^ 43 * |X| * (Real.pi / 2) := mul_le_mul_of_nonneg_left (by linarith) (by positivity)
    have h2 : k ≤ 3.03 * |X| := by linarith
    have h3 : k * (1 / 2 ^ 65) ≤ 3.03 * |X| * (1 / 2 ^ 65) := mul_le_mul_of_nonneg_right h2 (by norm_num)
    have h4 : 8 * (1 / 2 ^ 24) * (1 / 2 ^ 43 * |X| * 1.57) ≤ 8 * (1 / 2 ^ 24) * |Y| := mul_le_mul_of_nonneg_left (le_trans h1 hY) (by norm_num)
    refine le_trans h3 (le_trans ?_ h4)
    norm_num
    linarith
  · have h4 : 8 * (1 / 2 ^ 24) * (1 / 2 ^ 30 * (Real.pi / 2)) ≤ 8 * (1 / 2 ^ 24) * |Y| := mul_le_mul_of_nonneg_left hY2 (by norm_num)
    have h5 : k * (1 / 2 ^ 61) ≤ 80 * (1 / 2 ^ 61) := mul_le_mul_of_nonneg_right h64 (by norm_num)
    norm_num at h4 h5 ⊢
    linarith

/-- conversion of a float to double is exact -/
theorem cvt_up (md : Mode) {x : ℕ} (hx : binary32.Finite x) :
    binary64.Finite (binary64.hcvt binary32 md x) ∧ binary64.val (binary64.hcvt binary32 md x) = binary32.val x := by
  have h1 := binary32.ce_ge x
  have he : binary32.emin = -149 := by decide +kernel
  have h2 := binary32.ce_le_max hx
  have hm : (binary32.bias : ℤ) - binary32.F = 104 := by decide +kernel
  have hl := binary32.abs_val_lt_ce x
  have hF : (binary32.F : ℤ) = 23 := rfl
  obtain ⟨c, fc, vc⟩ := rep64 (binary32.ce x) (binary32.mult_ce x) (by omega) (le_trans hl.le (two_zpow_le (by omega))) (by
    refine le_trans hl.le ?_
    rw [← zpow_natCast]
    exact two_zpow_le (by push_cast; omega))
  exact RoundsTo.exact binary64 fc vc (CC.hcvt_spec binary64 binary32 md hx)

theorem phf_aux {u v η y r Y : ℝ} (hu : 0 < u) (hul : 1 / 2 ^ 24 ≤ u) (hv2 : v ≤ 1 / 2 ^ 52) (hη : 0 < η) (hη2 : η ≤ 1 / 2 ^ 100)
    (h1 : |r - Y| ≤ (2 + 1 / 2 ^ 40) * v * |Y| + 1 / 2 ^ 100) (h2 : |y - r| ≤ u * |r| + η) (hu2 : u ≤ 1 / 2 ^ 23) :
    |y - Y| ≤ (1 + 1 / 2 ^ 20) * u * |Y| + 1 / 2 ^ 98 := by
  have h3 := abs_tri h2 h1
  have hY := abs_nonneg Y
  have h4 : |r| ≤ |Y| + ((2 + 1 / 2 ^ 40) * v * |Y| + 1 / 2 ^ 100) := abs_near h1 le_rfl
  have h5 : (2 + 1 / 2 ^ 40) * v * |Y| ≤ (2 + 1 / 2 ^ 40) * (1 / 2 ^ 52) * |Y| :=
    mul_le_mul_of_nonneg_right (mul_le_mul_of_nonneg_left hv2 (by norm_num)) hY
  have h6 : (2 + 1 / 2 ^ 40) * (1 / 2 ^ 52) * |Y| ≤ 1 / 2 ^ 26 * (1 / 2 ^ 24) * |Y| := mul_le_mul_of_nonneg_right (by norm_num) hY
  have h7 : 1 / 2 ^ 26 * (1 / 2 ^ 24) * |Y| ≤ 1 / 2 ^ 26 * u * |Y| := mul_le_mul_of_nonneg_right (mul_le_mul_of_nonneg_left hul (by norm_num)) hY
  have h8 : |r| ≤ (1 + 1 / 2 ^ 26) * |Y| + 1 / 2 ^ 100 := by
    have : 1 / 2 ^ 26 * u * |Y| ≤ 1 / 2 ^ 26 * 1 * |Y| := mul_le_mul_of_nonneg_right (mul_le_mul_of_nonneg_left (le_trans hu2 (by norm_num)) (by norm_num)) hY
    linarith
  have h9 := mul_le_mul_of_nonneg_left h8 hu.le
  have k : 0 ≤ u * |Y| := by positivity
  have k2 : u * (1 / 2 ^ 100) ≤ 1 / 2 ^ 100 := by
    have := mul_le_mul_of_nonneg_right (le_trans hu2 (by norm_num : (1 : ℝ) / 2 ^ 23 ≤ 1)) (by norm_num : (0 : ℝ) ≤ 1 / 2 ^ 100)
    linarith
  linarith

theorem abs_val_lt_patf {x c : ℕ} (h : binary32.mag x < binary32.mag c) : |binary32.val x| < |binary32.val c| := by
  rw [binary32.abs_val, binary32.abs_val]
  have : binary32.umag (binary32.mag x) < binary32.umag (binary32.mag c) := binary32.umag_lt_iff.2 h
  exact mul_lt_mul_of_pos_right (by exact_mod_cast this) binary32.minSub_pos

theorem abs_val_le_patf {x c : ℕ} (h : binary32.mag x ≤ binary32.mag c) : |binary32.val x| ≤ |binary32.val c| := by
  rw [binary32.abs_val, binary32.abs_val]
  have : binary32.umag (binary32.mag x) ≤ binary32.umag (binary32.mag c) := binary32.umag_le_iff.2 h
  exact mul_le_mul_of_nonneg_right (by exact_mod_cast this) binary32.minSub_pos.le

theorem val_2p18f : |binary32.val 0x48800000| = 2 ^ 18 := by
  rw [lit32 false (2 ^ 23) 5 (by decide +kernel) (by decide +kernel) (by decide +kernel) (by decide +kernel)]
  norm_num [sg]

/-- both results, wherever the reduction is accurate -/
theorem sincosfEval_spec (ce fused : Bool) (md : Mode) (hce : ce = true → md = .nearest) {x : ℕ} (hx : binary32.Finite x)
    (hf : fused = true ∨ |binary32.val x| ≤ 31 ∨ 2 ^ 18 ≤ |binary32.val x|) :
    (∃ r, CC.sincosfEval true ce fused md x = some r ∧ binary32.Finite r ∧ |binary32.val r - Real.sin (binary32.val x)| ≤ 7.2 * ruf md ∧
      |binary32.val r - Real.sin (binary32.val x)| ≤ 49 * ruf md * |Real.sin (binary32.val x)| + 12 * etaf) ∧
    (∃ r, CC.sincosfEval false ce fused md x = some r ∧ binary32.Finite r ∧ |binary32.val r - Real.cos (binary32.val x)| ≤ 7.2 * ruf md ∧
      |binary32.val r - Real.cos (binary32.val x)| ≤ 49 * ruf md * |Real.cos (binary32.val x)| + 12 * etaf) := by
  have hu := ruf_pos md
  have hul := ruf_ge md
  have hu2 := ruf_le md
  have hη := etaf_pos
  have em : x &&& 0x7fffffff = binary32.mag x := Nat.and_two_pow_sub_one_eq_mod x 31
  obtain ⟨p1, p2⟩ := pi_near
  have hm := ((binary32.finite_iff x).1 hx).2
  have hi : binary32.infMag = 0x7f800000 := by decide +kernel
  rw [hi] at hm
  unfold CC.sincosfEval
  dsimp only
  rw [em]
  by_cases h0 : binary32.mag x = 0
  · have hv := (binary32.val_eq_zero_iff x).2 h0
    obtain ⟨q1, q2⟩ := pow2_32 false 0 (by norm_num) (by norm_num)
    have q3 : binary32.val (CC.pow2 binary32 false 0) = 1 := by rw [q2]; simp [sg]
    rw [if_pos h0, if_pos h0, hv]
    refine ⟨⟨x, rfl, hx, ?_⟩, _, rfl, q1, ?_⟩
    · rw [hv, Real.sin_zero, sub_zero, abs_zero]
      constructor <;> positivity
    · rw [if_neg (by simp), q3, Real.cos_zero, sub_self, abs_zero]
      constructor <;> positivity
  rw [if_neg h0, if_neg h0]
  by_cases h1 : binary32.mag x < 0x48800000
  · rw [if_pos h1, if_pos h1]
    have hb : |binary32.val x| < 2 ^ 18 := by
      rw [← val_2p18f]
      exact abs_val_lt_patf (c := 0x48800000) (by
        rw [show binary32.mag 0x48800000 = 0x48800000 from by decide +kernel]; exact h1)
    have hf' : fused = true ∨ |binary32.val x| ≤ 31 := by
      rcases hf with h | h | h
      · exact Or.inl h
      · exact Or.inr h
      · linarith
    obtain ⟨K, y, e1, fy, d1, k20, k64, k0, d2⟩ := sincosfSmall_spec ce fused md hce hx hb.le hf'
    rw [e1]
    have hK : K % 16 = (((K % 2 ^ 32).toNat % 16 : ℕ) : ℤ) := by omega
    have d3 : |binary32.val y - (binary32.val x - K * (Real.pi / 8))| ≤ (2 + 1 / 2 ^ 6) * ruf md * |binary32.val x - K * (Real.pi / 8)| + 1 / 2 ^ 40 := by
      refine le_trans d2 (add_le_add le_rfl ?_)
      have : |(K : ℝ)| * (if fused then 1 / 2 ^ 65 else 1 / 2 ^ 61) ≤ 2 ^ 20 * (1 / 2 ^ 61) :=
        mul_le_mul k20 (by split_ifs <;> norm_num) (by split_ifs <;> norm_num) (by norm_num)
      exact le_trans this (by norm_num)
    have d4 : K % 4 = 0 → |binary32.val y - (binary32.val x - K * (Real.pi / 8))| ≤ 10.1 * ruf md * |binary32.val x - K * (Real.pi / 8)| := by
      intro h4
      by_cases hK0 : K = 0
      · rw [k0 hK0, hK0]
        have : binary32.val x - (binary32.val x - ((0 : ℤ) : ℝ) * (Real.pi / 8)) = 0 := by push_cast; ring
        rw [this, abs_zero]; positivity
      · have hk4 : (4 : ℝ) ≤ |(K : ℝ)| := by
          have : 4 ≤ |K| := by
            rcases lt_or_gt_of_ne hK0 with h | h
            · rw [abs_of_neg h]; omega
            · rw [abs_of_pos h]; omega
          exact_mod_cast this
        have hdK : |(K : ℝ)| * (Real.pi / 8) ≤ |binary32.val x| + 0.244 := by
          have : |(K : ℝ) * (Real.pi / 8)| ≤ |binary32.val x| + 0.244 := abs_near (by rw [abs_sub_comm]; exact d1) le_rfl
          rwa [abs_mul, abs_of_pos (by linarith : 0 < Real.pi / 8)] at this
        have hx8 : (1 : ℝ) / 8 ≤ |binary32.val x| := by
          have : 4 * (Real.pi / 8) ≤ |(K : ℝ)| * (Real.pi / 8) := mul_le_mul_of_nonneg_right hk4 (by linarith)
          linarith
        have l1 := halfpi32_small hx hx8 hb (K / 4)
        have l2 := halfpi32 hx hx8 (K / 4)
        rw [← axis_arith h4] at l1 l2
        have := small_axis_f (δ := if fused then 1 / 2 ^ 65 else 1 / 2 ^ 61) hul hdK hk4 l1 l2 (by
          cases fused
          · right; exact ⟨rfl, k64 rfl⟩
          · left; rfl)
        have k : 0 ≤ ruf md * |binary32.val x - K * (Real.pi / 8)| := by positivity
        linarith
    obtain ⟨a, b⟩ := core32 fused md hK fy d1 d3 d4
    exact ⟨⟨_, rfl, a⟩, _, rfl, b⟩
  · rw [if_neg h1, if_neg h1, if_neg (by omega), if_neg (by omega)]
    have hb : 2 ^ 18 ≤ |binary32.val x| := by
      rw [← val_2p18f]
      refine abs_val_le_patf ?_
      rw [show binary32.mag 0x48800000 = 0x48800000 from by decide +kernel]; omega
    obtain ⟨fD, vD⟩ := cvt_up md hx
    have hb2 : 1 / 2 ^ 201 ≤ |binary64.val (binary64.hcvt binary32 md x)| := by
      rw [vD]; exact le_trans (by norm_num) hb
    obtain ⟨fy, K, e1, d1, d2⟩ := payneHanek_spec fused md fD (bexp_of_ge hb2)
    rw [vD] at d1 d2
    replace d2 := le_trans d2 (add_le_add le_rfl (by have := ru_le md; linarith : 1.75 * (ru md / 2 ^ 53) ≤ 1 / 2 ^ 100))
    generalize CC.payneHanek fused md (binary64.hcvt binary32 md x) = R at *
    have hY : |binary32.val x - K * (Real.pi / 8)| ≤ 0.197 := by
      refine le_trans d1 ?_
      have : (1 / 2 + 1 / 2 ^ 200) * (Real.pi / 8) ≤ (1 / 2 + 1 / 2 ^ 200) * (3.1416 / 8) := mul_le_mul_of_nonneg_left (by linarith) (by norm_num)
      exact le_trans this (by norm_num)
    have hR : |binary64.val R.2| ≤ 2 ^ 100 := by
      refine le_trans (abs_near d2 hY) ?_
      have : (2 + 1 / 2 ^ 40) * ru md * |binary32.val x - K * (Real.pi / 8)| ≤ (2 + 1 / 2 ^ 40) * 1 * 0.197 :=
        mul_le_mul (mul_le_mul_of_nonneg_left (le_trans (ru_le md) (by norm_num)) (by norm_num)) hY (abs_nonneg _) (by norm_num)
      have : (0.197 : ℝ) + ((2 + 1 / 2 ^ 40) * 1 * 0.197 + 1 / 2 ^ 100) ≤ 2 ^ 100 := by norm_num
      linarith
    obtain ⟨ff, ef⟩ := err32 (CC.hcvt_spec binary32 binary64 md fy) hR
    have d3 := phf_aux hu hul (ru_le md) hη etaf_le d2 ef hu2
    have k : 0 ≤ ruf md * |binary32.val x - K * (Real.pi / 8)| := by positivity
    obtain ⟨a, b⟩ := core32 fused md (k := R.1) (X := binary32.val x) (K := K) (by omega) ff (le_trans hY (by norm_num)) (by
        have : (1 : ℝ) / 2 ^ 98 ≤ 1 / 2 ^ 40 := by norm_num
        linarith) (by
        intro h4
        have l := halfpi32 hx (le_trans (by norm_num) hb) (K / 4)
        rw [← axis_arith h4] at l
        have : (1 : ℝ) / 2 ^ 98 ≤ 1 / 2 ^ 24 * (1 / 2 ^ 30 * (Real.pi / 2)) := by
          have : (1 : ℝ) / 2 ^ 24 * (1 / 2 ^ 30 * 1.5) ≤ 1 / 2 ^ 24 * (1 / 2 ^ 30 * (Real.pi / 2)) := by
            refine mul_le_mul_of_nonneg_left (mul_le_mul_of_nonneg_left (by linarith) (by norm_num)) (by norm_num)
          refine le_trans ?_ this
          norm_num
        have : 1 / 2 ^ 24 * (1 / 2 ^ 30 * (Real.pi / 2)) ≤ ruf md * |binary32.val x - K * (Real.pi / 8)| :=
          mul_le_mul hul l (by positivity) hu.le
        linarith)
    exact ⟨⟨_, rfl, a⟩, _, rfl, b⟩

end Verif
