import Verif.Lemmas.SinCos4

/-!
# Lemmas for double sine and cosine: total error
-/

namespace Verif
open Fmt

theorem pi_near : 3.14159 < Real.pi ∧ Real.pi < 3.1416 := by
  obtain ⟨a, b⟩ := pi_250
  constructor <;> linarith

theorem sin_congr16 {K : ℤ} {k : ℕ} (h : K % 16 = ((k % 16 : ℕ) : ℤ)) (t : ℝ) :
    Real.sin (K * (Real.pi / 8) + t) = Real.sin (((k % 16 : ℕ) : ℝ) * (Real.pi / 8) + t) ∧
    Real.cos (K * (Real.pi / 8) + t) = Real.cos (((k % 16 : ℕ) : ℝ) * (Real.pi / 8) + t) := by
  have e : K = 16 * (K / 16) + ((k % 16 : ℕ) : ℤ) := by rw [← h]; omega
  have e2 : (K : ℝ) * (Real.pi / 8) + t = (((k % 16 : ℕ) : ℝ) * (Real.pi / 8) + t) + (K / 16 : ℤ) * (2 * Real.pi) := by
    have : (K : ℝ) = ((16 * (K / 16) + ((k % 16 : ℕ) : ℤ) : ℤ) : ℝ) := congrArg _ e
    rw [Int.cast_add, Int.cast_mul, Int.cast_natCast] at this
    rw [this]; push_cast; ring
  rw [e2, Real.sin_add_int_mul_two_pi, Real.cos_add_int_mul_two_pi]
  exact ⟨rfl, rfl⟩

theorem abs_sin_sub_le (a b : ℝ) : |Real.sin a - Real.sin b| ≤ |a - b| := by
  rw [Real.sin_sub_sin, abs_mul, abs_mul, abs_two]
  have h1 : |Real.sin ((a - b) / 2)| ≤ |(a - b) / 2| := Real.abs_sin_le_abs
  have h2 := Real.abs_cos_le_one ((a + b) / 2)
  rw [abs_div, abs_two] at h1
  have h3 := mul_le_mul h1 h2 (abs_nonneg _) (by positivity)
  nlinarith [abs_nonneg (a - b)]

theorem abs_cos_sub_le (a b : ℝ) : |Real.cos a - Real.cos b| ≤ |a - b| := by
  rw [← Real.sin_add_pi_div_two, ← Real.sin_add_pi_div_two]
  refine le_trans (abs_sin_sub_le _ _) (le_of_eq ?_)
  congr 1; ring

/-- a sine near a multiple of `π` -/
theorem abs_sin_axis {K : ℤ} (h : K % 8 = 0) (Y : ℝ) : |Real.sin (K * (Real.pi / 8) + Y)| = |Real.sin Y| := by
  have e : K = 8 * (K / 8) := by omega
  have e2 : (K : ℝ) * (Real.pi / 8) + Y = Y + (K / 8 : ℤ) * Real.pi := by
    have : (K : ℝ) = 8 * ((K / 8 : ℤ) : ℝ) := by exact_mod_cast e
    rw [this]; ring
  rw [e2, Real.sin_add_int_mul_pi, abs_mul]
  rcases Int.even_or_odd (K / 8) with h | h
  · rw [h.neg_one_zpow]; simp
  · rw [h.neg_one_zpow]; simp

/-- a sine away from the multiples of `π` -/
theorem abs_sin_off {K : ℤ} (h : K % 8 ≠ 0) {Y : ℝ} (hY : |Y| ≤ 0.197) : 0.19 ≤ |Real.sin (K * (Real.pi / 8) + Y)| := by
  obtain ⟨p1, p2⟩ := pi_near
  obtain ⟨y1, y2⟩ := abs_le.1 hY
  have hr : 1 ≤ K % 8 ∧ K % 8 ≤ 7 := by omega
  have e : K = 8 * (K / 8) + K % 8 := by omega
  have e2 : (K : ℝ) * (Real.pi / 8) + Y = (((K % 8 : ℤ) : ℝ) * (Real.pi / 8) + Y) + (K / 8 : ℤ) * Real.pi := by
    have : (K : ℝ) = 8 * ((K / 8 : ℤ) : ℝ) + ((K % 8 : ℤ) : ℝ) := by exact_mod_cast e
    rw [this]; ring
  have e3 : |Real.sin (K * (Real.pi / 8) + Y)| = |Real.sin (((K % 8 : ℤ) : ℝ) * (Real.pi / 8) + Y)| := by
    rw [e2, Real.sin_add_int_mul_pi, abs_mul]
    rcases Int.even_or_odd (K / 8) with h | h
    · rw [h.neg_one_zpow]; simp
    · rw [h.neg_one_zpow]; simp
  rw [e3]
  have r1 : (1 : ℝ) ≤ ((K % 8 : ℤ) : ℝ) := by exact_mod_cast hr.1
  have r2 : ((K % 8 : ℤ) : ℝ) ≤ 7 := by exact_mod_cast hr.2
  generalize ((K % 8 : ℤ) : ℝ) = r at *
  have q1 : 0.195 ≤ r * (Real.pi / 8) + Y := by nlinarith
  have q2 : r * (Real.pi / 8) + Y ≤ Real.pi - 0.195 := by nlinarith
  generalize r * (Real.pi / 8) + Y = φ at *
  have hs : 0.19 ≤ Real.sin 0.195 := by
    have := Real.sin_gt_sub_cube (x := 0.195) (by norm_num)
    norm_num at this ⊢
    linarith
  refine le_trans hs (le_trans ?_ (le_abs_self _))
  rcases le_total φ (Real.pi / 2) with h | h
  · exact Real.sin_le_sin_of_le_of_le_pi_div_two (by linarith) h q1
  · rw [← Real.sin_pi_sub φ]
    exact Real.sin_le_sin_of_le_of_le_pi_div_two (by linarith) (by linarith) (by linarith)

/-- `|Y| ≤ 1.01 |sin Y|` for small `Y` -/
theorem abs_le_sin {Y : ℝ} (hY : |Y| ≤ 0.197) : |Y| ≤ 1.011 * |Real.sin Y| := by
  rcases eq_or_ne Y 0 with rfl | h0
  · simp
  have hp := abs_pos.2 h0
  have h1 := Real.sin_gt_sub_cube hp
  have h2 : |Real.sin Y| = |Real.sin (|Y|)| := by
    rcases abs_choice Y with h | h <;> rw [h]
    rw [Real.sin_neg, abs_neg]
  rw [h2]
  have h3 := le_abs_self (Real.sin (|Y|))
  generalize |Y| = t at *
  have : t ^ 3 ≤ 0.197 ^ 2 * t := by nlinarith [mul_le_mul hY hY hp.le (by norm_num : (0:ℝ) ≤ 0.197)]
  nlinarith

theorem core_abs {u r s1 s Y d : ℝ} (hu : 0 < u) (hul : 1 / 2 ^ 53 ≤ u) (h1 : |r - s1| ≤ 5 * u) (h2 : |s1 - s| ≤ d)
    (hd : d ≤ (2 + 1 / 2 ^ 20) * u * |Y| + 1 / 2 ^ 96) (hY : |Y| ≤ 0.197) : |r - s| ≤ 5.5 * u := by
  have := abs_tri h1 h2
  have h3 := mul_le_mul_of_nonneg_left hY (by positivity : 0 ≤ (2 + 1 / 2 ^ 20) * u)
  have h4 : (1 : ℝ) / 2 ^ 96 ≤ 1 / 2 ^ 40 * u := by
    have : (1 : ℝ) / 2 ^ 96 ≤ 1 / 2 ^ 40 * (1 / 2 ^ 53) := by norm_num
    linarith
  nlinarith

theorem core_rel {u η r s1 s y Y d : ℝ} (hu : 0 < u) (hu2 : u ≤ 1 / 2 ^ 52) (hη2 : η ≤ 1 / 2 ^ 200)
    (h1 : |r - s1| ≤ 32 / 10 * u * |y| + 12 * η) (h2 : |s1 - s| ≤ d) (hy : |y - Y| ≤ d)
    (hd : d ≤ (2 + 1 / 2 ^ 20) * u * |Y| + 1 / 2 ^ 96) (hs : |Y| ≤ 1.011 * |s|) : |r - s| ≤ 6 * u * |s| + 1 / 2 ^ 95 := by
  have h3 := abs_tri h1 h2
  have h4 : |y| ≤ |Y| + d := abs_near hy le_rfl
  have h5 := mul_le_mul_of_nonneg_left h4 hu.le
  have h6 : u * d ≤ 1 / 2 ^ 52 * d := mul_le_mul_of_nonneg_right hu2 (le_trans (abs_nonneg _) hy)
  have h7 : u * |Y| ≤ 1.011 * (u * |s|) := by
    have := mul_le_mul_of_nonneg_left hs hu.le
    linarith
  have h8 : 0 ≤ u * |s| := by positivity
  nlinarith

/-- error relative to the result, from a relative error of the reduced argument -/
theorem core_rel' {u η r s1 s y Y : ℝ} (hu : 0 < u) (hu2 : u ≤ 1 / 2 ^ 52)
    (h1 : |r - s1| ≤ 32 / 10 * u * |y| + 12 * η) (h2 : |s1 - s| ≤ |y - Y|)
    (hd : |y - Y| ≤ 575 * u * |Y|) (hs : |Y| ≤ 1.011 * |s|) : |r - s| ≤ 600 * u * |s| + 12 * η := by
  have h3 := abs_tri h1 (le_trans h2 hd)
  have h4 : |y| ≤ |Y| + 575 * u * |Y| := abs_near hd le_rfl
  have h5 := mul_le_mul_of_nonneg_left h4 hu.le
  have h6 : u * (u * |Y|) ≤ 1 / 2 ^ 52 * (u * |Y|) := mul_le_mul_of_nonneg_right hu2 (by positivity)
  have h7 : u * |Y| ≤ 1.011 * (u * |s|) := by
    have := mul_le_mul_of_nonneg_left hs hu.le
    linarith
  have h8 : 0 ≤ u * |s| := by positivity
  nlinarith

/-- the kernel after a reduction: `k`, `y` represent `X` -/
theorem core64 (fused : Bool) (md : Mode) {k y : ℕ} {K : ℤ} {X : ℝ} (hk : k < 2 ^ 32) (hK : K % 16 = ((k % 16 : ℕ) : ℤ)) (fy : binary64.Finite y)
    (hY : |X - K * (Real.pi / 8)| ≤ 0.197)
    (hy : |binary64.val y - (X - K * (Real.pi / 8))| ≤ (2 + 1 / 2 ^ 20) * ru md * |X - K * (Real.pi / 8)| + 1 / 2 ^ 96)
    (hax : K % 4 = 0 → |binary64.val y - (X - K * (Real.pi / 8))| ≤ 575 * ru md * |X - K * (Real.pi / 8)|) :
    (binary64.Finite (CC.sincosPoly true fused md k y) ∧
      |binary64.val (CC.sincosPoly true fused md k y) - Real.sin X| ≤ 5.5 * ru md ∧
      |binary64.val (CC.sincosPoly true fused md k y) - Real.sin X| ≤ 30 * ru md * |Real.sin X| + 1 / 2 ^ 95 ∧
      |binary64.val (CC.sincosPoly true fused md k y) - Real.sin X| ≤ 600 * ru md * |Real.sin X| + 12 * eta) ∧
    (binary64.Finite (CC.sincosPoly false fused md k y) ∧
      |binary64.val (CC.sincosPoly false fused md k y) - Real.cos X| ≤ 5.5 * ru md ∧
      |binary64.val (CC.sincosPoly false fused md k y) - Real.cos X| ≤ 30 * ru md * |Real.cos X| + 1 / 2 ^ 95 ∧
      |binary64.val (CC.sincosPoly false fused md k y) - Real.cos X| ≤ 600 * ru md * |Real.cos X| + 12 * eta) := by
  have hu := ru_pos md
  have hu2 := ru_le md
  have hul := ru_ge md
  have hη2 := eta_le
  have hyb : |binary64.val y| ≤ 1 / 5 := by
    refine le_trans (abs_near hy hY) ?_
    have : (2 + 1 / 2 ^ 20) * ru md * |X - K * (Real.pi / 8)| ≤ (2 + 1 / 2 ^ 20) * (1 / 2 ^ 52) * 0.197 :=
      mul_le_mul (mul_le_mul_of_nonneg_left hu2 (by norm_num)) hY (abs_nonneg _) (by norm_num)
    have : (0.197 : ℝ) + ((2 + 1 / 2 ^ 20) * (1 / 2 ^ 52) * 0.197 + 1 / 2 ^ 96) ≤ 1 / 5 := by norm_num
    linarith
  obtain ⟨⟨s1, s2, s3⟩, c1, c2, c3⟩ := poly64 fused md hk fy hyb
  obtain ⟨a1, a2⟩ := sin_congr16 hK (binary64.val y)
  rw [← a1] at s2 s3
  rw [← a2] at c2 c3
  generalize CC.sincosPoly true fused md k y = rs at *
  generalize CC.sincosPoly false fused md k y = rc at *
  have eX : X = K * (Real.pi / 8) + (X - K * (Real.pi / 8)) := by ring
  generalize X - K * (Real.pi / 8) = Y at *
  have ds : |Real.sin (K * (Real.pi / 8) + binary64.val y) - Real.sin X| ≤ |binary64.val y - Y| := by
    refine le_trans (abs_sin_sub_le _ _) (le_of_eq ?_)
    rw [eX, add_sub_add_left_eq_sub]
  have dc : |Real.cos (K * (Real.pi / 8) + binary64.val y) - Real.cos X| ≤ |binary64.val y - Y| := by
    refine le_trans (abs_cos_sub_le _ _) (le_of_eq ?_)
    rw [eX, add_sub_add_left_eq_sub]
  have hsA := core_abs hu hul s2 ds hy hY
  have hcA := core_abs hu hul c2 dc hy hY
  have off : ∀ {r s : ℝ}, |r - s| ≤ 5.5 * ru md → 0.19 ≤ |s| → |r - s| ≤ 30 * ru md * |s| + 1 / 2 ^ 95 := by
    intro r s h1 h2
    have := mul_le_mul_of_nonneg_left h2 (by positivity : 0 ≤ 30 * ru md)
    have : (0 : ℝ) ≤ 1 / 2 ^ 95 := by norm_num
    linarith
  have off' : ∀ {r s : ℝ}, |r - s| ≤ 5.5 * ru md → 0.19 ≤ |s| → |r - s| ≤ 600 * ru md * |s| + 12 * eta := by
    intro r s h1 h2
    have := mul_le_mul_of_nonneg_left h2 (by positivity : 0 ≤ 600 * ru md)
    have := eta_pos
    linarith
  have on : ∀ {r s : ℝ}, |r - s| ≤ 6 * ru md * |s| + 1 / 2 ^ 95 → |r - s| ≤ 30 * ru md * |s| + 1 / 2 ^ 95 := by
    intro r s h1
    have : 0 ≤ ru md * |s| := by positivity
    linarith
  refine ⟨⟨s1, hsA, ?_⟩, c1, hcA, ?_⟩
  · by_cases h8 : K % 8 = 0
    · have hb : |Y| ≤ 1.011 * |Real.sin X| := by rw [eX, abs_sin_axis h8]; exact abs_le_sin hY
      exact ⟨on (core_rel hu hu2 hη2 (s3 (by omega)) ds le_rfl hy hb), core_rel' hu hu2 (s3 (by omega)) ds (hax (by omega)) hb⟩
    · have hb : 0.19 ≤ |Real.sin X| := by rw [eX]; exact abs_sin_off h8 hY
      exact ⟨off hsA hb, off' hsA hb⟩
  · have ec : Real.cos X = Real.sin (((K + 4 : ℤ) : ℝ) * (Real.pi / 8) + Y) := by
      rw [← Real.sin_add_pi_div_two]; congr 1; rw [eX]; push_cast; ring
    by_cases h8 : (K + 4) % 8 = 0
    · have hb : |Y| ≤ 1.011 * |Real.cos X| := by rw [ec, abs_sin_axis h8]; exact abs_le_sin hY
      exact ⟨on (core_rel hu hu2 hη2 (c3 (by omega)) dc le_rfl hy hb), core_rel' hu hu2 (c3 (by omega)) dc (hax (by omega)) hb⟩
    · have hb : 0.19 ≤ |Real.cos X| := by rw [ec]; exact abs_sin_off h8 hY
      exact ⟨off hcA hb, off' hcA hb⟩

end Verif
