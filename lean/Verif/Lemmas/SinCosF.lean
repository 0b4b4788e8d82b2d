import Verif.Model.TrigF
import Verif.Lemmas.FErr32
import Verif.Lemmas.SinCos5

/-!
# Lemmas for float sine and cosine: table and kernels
-/

namespace Verif
open Fmt

theorem etaf_ruf (md : Mode) : etaf ≤ ruf md / 2 ^ 100 := by
  have h1 : etaf ≤ 1 / 2 ^ 124 := by
    rw [etaf_eq]
    calc (2 : ℝ) ^ (-149 : ℤ) ≤ (2 : ℝ) ^ (-124 : ℤ) := two_zpow_le (by norm_num)
      _ = 1 / 2 ^ 124 := by rw [zpow_neg, one_div]; norm_cast
  have h2 := ruf_ge md
  have h3 : (1 : ℝ) / 2 ^ 124 = 1 / 2 ^ 24 / 2 ^ 100 := by norm_num
  rw [h3] at h1
  exact le_trans h1 (div_le_div_of_nonneg_right h2 (by positivity))

theorem sin8f_near : |(0xc3ef15 : ℝ) / 2 ^ 25 - Real.sin (Real.pi / 8)| ≤ 1 / 2 ^ 25 := by
  have := sin8_near
  exact le_trans (abs_tri (e := 1 / 2 ^ 54) (d := 1 / 2 ^ 26) (by rw [abs_le]; constructor <;> norm_num) this) (by norm_num)
theorem cos8f_near : |(0xec835e : ℝ) / 2 ^ 24 - Real.cos (Real.pi / 8)| ≤ 1 / 2 ^ 25 := by
  have := cos8_near
  exact le_trans (abs_tri (e := 1 / 2 ^ 54) (d := 1 / 2 ^ 25 - 1 / 2 ^ 54) (by rw [abs_le]; constructor <;> norm_num) this) (by norm_num)
theorem sin4f_near : |(0xb504f3 : ℝ) / 2 ^ 24 - Real.sin (Real.pi / 4)| ≤ 1 / 2 ^ 25 := by
  have := sin4_near
  exact le_trans (abs_tri (e := 1 / 2 ^ 54) (d := 1 / 2 ^ 25 - 1 / 2 ^ 54) (by rw [abs_le]; constructor <;> norm_num) this) (by norm_num)

/-- first half -/
theorem sinTabf_first {k : ℕ} (hk : k < 8) : binary32.Finite (CC.sinKPi8f.getD k 0) ∧
    |binary32.val (CC.sinKPi8f.getD k 0) - Real.sin (k * (Real.pi / 8))| ≤ 1 / 2 ^ 25 ∧
    (k % 4 = 0 → binary32.val (CC.sinKPi8f.getD k 0) = Real.sin (k * (Real.pi / 8))) := by
  have v1 : binary32.val 0x3EC3EF15 = 0xc3ef15 / 2 ^ 25 := by
    rw [lit32 false 0xc3ef15 25 (by decide +kernel) (by decide +kernel) (by decide +kernel) (by decide +kernel)]; simp [sg]
  have v2 : binary32.val 0x3F3504F3 = 0xb504f3 / 2 ^ 24 := by
    rw [lit32 false 0xb504f3 24 (by decide +kernel) (by decide +kernel) (by decide +kernel) (by decide +kernel)]; simp [sg]
  have v3 : binary32.val 0x3F6C835E = 0xec835e / 2 ^ 24 := by
    rw [lit32 false 0xec835e 24 (by decide +kernel) (by decide +kernel) (by decide +kernel) (by decide +kernel)]; simp [sg]
  have v4 : binary32.val 0x3F800000 = 1 := by
    rw [lit32 false (2 ^ 23) 23 (by decide +kernel) (by decide +kernel) (by decide +kernel) (by decide +kernel)]; norm_num [sg]
  have v0 : binary32.val 0 = 0 := (binary32.val_eq_zero_iff 0).2 (by decide +kernel)
  interval_cases k
  · refine ⟨by decide +kernel, ?_, fun _ => ?_⟩ <;> simp [CC.sinKPi8f, v0]
  · refine ⟨by decide +kernel, ?_, fun h => absurd h (by decide)⟩
    change |binary32.val 0x3EC3EF15 - _| ≤ _
    rw [v1, Nat.cast_one, one_mul]; exact sin8f_near
  · refine ⟨by decide +kernel, ?_, fun h => absurd h (by decide)⟩
    change |binary32.val 0x3F3504F3 - _| ≤ _
    rw [v2, show ((2 : ℕ) : ℝ) * (Real.pi / 8) = Real.pi / 4 by push_cast; ring]; exact sin4f_near
  · refine ⟨by decide +kernel, ?_, fun h => absurd h (by decide)⟩
    change |binary32.val 0x3F6C835E - _| ≤ _
    rw [v3, show ((3 : ℕ) : ℝ) * (Real.pi / 8) = Real.pi / 2 - Real.pi / 8 by push_cast; ring, Real.sin_pi_div_two_sub]; exact cos8f_near
  · have e : ((4 : ℕ) : ℝ) * (Real.pi / 8) = Real.pi / 2 := by push_cast; ring
    refine ⟨by decide +kernel, ?_, fun _ => ?_⟩
    · change |binary32.val 0x3F800000 - _| ≤ _
      rw [v4, e, Real.sin_pi_div_two]; simp
    · change binary32.val 0x3F800000 = _
      rw [v4, e, Real.sin_pi_div_two]
  · refine ⟨by decide +kernel, ?_, fun h => absurd h (by decide)⟩
    change |binary32.val 0x3F6C835E - _| ≤ _
    rw [v3, show ((5 : ℕ) : ℝ) * (Real.pi / 8) = Real.pi / 8 + Real.pi / 2 by push_cast; ring, Real.sin_add_pi_div_two]; exact cos8f_near
  · refine ⟨by decide +kernel, ?_, fun h => absurd h (by decide)⟩
    change |binary32.val 0x3F3504F3 - _| ≤ _
    rw [v2, show ((6 : ℕ) : ℝ) * (Real.pi / 8) = Real.pi - Real.pi / 4 by push_cast; ring, Real.sin_pi_sub]; exact sin4f_near
  · refine ⟨by decide +kernel, ?_, fun h => absurd h (by decide)⟩
    change |binary32.val 0x3EC3EF15 - _| ≤ _
    rw [v1, show ((7 : ℕ) : ℝ) * (Real.pi / 8) = Real.pi - Real.pi / 8 by push_cast; ring, Real.sin_pi_sub]; exact sin8f_near

theorem sinTabf_neg {k : ℕ} (hk : k < 8) : binary32.Finite (CC.sinKPi8f.getD (k + 8) 0) ∧
    binary32.val (CC.sinKPi8f.getD (k + 8) 0) = -binary32.val (CC.sinKPi8f.getD k 0) := by
  have h : binary32.Finite (CC.sinKPi8f.getD (k + 8) 0) ∧ (binary32.val (CC.sinKPi8f.getD k 0) = 0 ∧ CC.sinKPi8f.getD (k + 8) 0 = CC.sinKPi8f.getD k 0 ∨
      CC.sinKPi8f.getD (k + 8) 0 = binary32.hneg (CC.sinKPi8f.getD k 0)) := by
    have v0 : binary32.val 0 = 0 := (binary32.val_eq_zero_iff 0).2 (by decide +kernel)
    interval_cases k
    · exact ⟨by decide +kernel, Or.inl ⟨v0, by decide +kernel⟩⟩
    all_goals exact ⟨by decide +kernel, Or.inr (by decide +kernel)⟩
  refine ⟨h.1, ?_⟩
  rcases h.2 with ⟨h1, h2⟩ | h2
  · rw [h2, h1, neg_zero]
  · rw [h2, binary32.val_hneg]

/-- The table: `sin(k π/8)` to within half the error of a rounding, exactly for multiples of `π/2`. -/
theorem sinTabf_spec (md : Mode) {k : ℕ} (hk : k < 16) : binary32.Finite (CC.sinKPi8f.getD k 0) ∧
    |binary32.val (CC.sinKPi8f.getD k 0) - Real.sin (k * (Real.pi / 8))| ≤ ruf md / 2 ∧
    (k % 4 = 0 → binary32.val (CC.sinKPi8f.getD k 0) = Real.sin (k * (Real.pi / 8))) := by
  have hr : (1 : ℝ) / 2 ^ 25 ≤ ruf md / 2 := by
    have := ruf_ge md
    have e : (1 : ℝ) / 2 ^ 25 = 1 / 2 ^ 24 / 2 := by norm_num
    rw [e]; linarith
  by_cases h : k < 8
  · obtain ⟨a, b, c⟩ := sinTabf_first h
    exact ⟨a, le_trans b hr, c⟩
  · obtain ⟨j, rfl⟩ : ∃ j, k = j + 8 := ⟨k - 8, by omega⟩
    have hj : j < 8 := by omega
    obtain ⟨a, b, c⟩ := sinTabf_first hj
    obtain ⟨d, e⟩ := sinTabf_neg hj
    have es : Real.sin (((j + 8 : ℕ) : ℝ) * (Real.pi / 8)) = -Real.sin (j * (Real.pi / 8)) := by
      rw [← Real.sin_add_pi]; congr 1; push_cast; ring
    rw [e, es]
    refine ⟨d, ?_, fun h4 => by rw [c (by omega)]⟩
    rw [neg_sub_neg, abs_sub_comm]; exact le_trans b hr

/-- one Horner step -/
theorem hstepf {u η q Q p c r B C : ℝ} (hu : 0 < u) (hu2 : u ≤ 1 / 2 ^ 23) (hη0 : 0 < η) (hη : η ≤ u / 2 ^ 100) (hq : |q - Q| ≤ u * |Q| + η) (hQ : |Q| ≤ 1 / 16)
    (hp : |p| ≤ B) (hc : |c| ≤ C)
    (hr : |r - (q * p + c)| ≤ u * |q * p + c| + (1 + 1 / 2 ^ 20) * u * |q * p| + 3 * η) :
    |r - (Q * p + c)| ≤ (C + 19 / 100 * B + 1 / 1000) * u + 2 * η * B := by
  have hB : 0 ≤ B := le_trans (abs_nonneg _) hp
  have hη3 : η ≤ 1 / 2 ^ 100 := by
    have : u / 2 ^ 100 ≤ 1 / 2 ^ 100 := div_le_div_of_nonneg_right (le_trans hu2 (by norm_num)) (by positivity)
    linarith
  have hq2 : |q - Q| ≤ u * (1 / 16) + η := le_trans hq (by have := mul_le_mul_of_nonneg_left hQ hu.le; linarith)
  have hqb : |q| ≤ 626 / 10000 := by
    refine le_trans (abs_near hq2 hQ) ?_
    have : (1 : ℝ) / 16 + (1 / 2 ^ 23 * (1 / 16) + 1 / 2 ^ 100) ≤ 626 / 10000 := by norm_num
    have : u * (1 / 16) ≤ 1 / 2 ^ 23 * (1 / 16) := mul_le_mul_of_nonneg_right hu2 (by norm_num)
    linarith
  have hqp := abs_mul_le hqb hp
  have h1 : |q * p + c - (Q * p + c)| ≤ (u * (1 / 16) + η) * B := by
    have e : q * p + c - (Q * p + c) = (q - Q) * p := by ring
    rw [e]; exact abs_mul_le hq2 hp
  have h2 := abs_add_le' hqp hc
  have h3 := mul_le_mul_of_nonneg_left h2 hu.le
  have h4 := mul_le_mul_of_nonneg_left hqp (by positivity : 0 ≤ (1 + 1 / 2 ^ 20) * u)
  have h5 := abs_tri hr h1
  refine le_trans h5 ?_
  have h7 : 3 * η ≤ 1 / 1000 * u := by
    have : 3 * (u / 2 ^ 100) ≤ 1 / 1000 * u := by
      have : 3 * (u / 2 ^ 100) = 3 / 2 ^ 100 * u := by ring
      rw [this]; exact mul_le_mul_of_nonneg_right (by norm_num) hu.le
    linarith
  have h9 : 0 ≤ u * B := by positivity
  have h10 : 0 ≤ η * B := by positivity
  nlinarith

theorem sf_trunc {y : ℝ} (hy : |y| ≤ 1 / 4) :
    |y + y ^ 3 * (y ^ 2 * (0x888889 / 2 ^ 30) - 0xaaaaab / 2 ^ 26) - Real.sin y| ≤ 83 / 100 * (1 / 2 ^ 24) * |y| := by
  have h := sin_taylor13 y (le_trans hy (by norm_num))
  have hQ : y ^ 2 ≤ 1 / 16 := by
    rw [← sq_abs]; exact le_trans (pow_le_pow_left₀ (abs_nonneg _) hy 2) (by norm_num)
  have hQ0 : 0 ≤ y ^ 2 := sq_nonneg y
  have ht : |y| ^ 13 * (14 / (6227020800 * 13)) ≤ 1 / 2 ^ 40 * |y| := by
    have : |y| ^ 13 = |y| ^ 12 * |y| := by ring
    rw [this, mul_right_comm]
    refine mul_le_mul_of_nonneg_right ?_ (abs_nonneg _)
    have : |y| ^ 12 ≤ (1 / 4) ^ 12 := pow_le_pow_left₀ (abs_nonneg _) hy 12
    have := mul_le_mul_of_nonneg_right this (by norm_num : (0 : ℝ) ≤ 14 / (6227020800 * 13))
    exact le_trans this (by norm_num)
  have e : y + y ^ 3 * (y ^ 2 * (0x888889 / 2 ^ 30) - 0xaaaaab / 2 ^ 26) -
      (y - y ^ 3 / 6 + y ^ 5 / 120 - y ^ 7 / 5040 + y ^ 9 / 362880 - y ^ 11 / 39916800) =
      (y ^ 2 * (1 / 6 - 0xaaaaab / 2 ^ 26) + y ^ 2 * y ^ 2 * (0x888889 / 2 ^ 30 - 1 / 120) + y ^ 2 * y ^ 2 * y ^ 2 * (1 / 5040 - y ^ 2 / 362880 + y ^ 2 * y ^ 2 / 39916800)) * y := by ring
  have hp : |y ^ 2 * (1 / 6 - 0xaaaaab / 2 ^ 26) + y ^ 2 * y ^ 2 * (0x888889 / 2 ^ 30 - 1 / 120) + y ^ 2 * y ^ 2 * y ^ 2 * (1 / 5040 - y ^ 2 / 362880 + y ^ 2 * y ^ 2 / 39916800)| ≤
      829 / 1000 * (1 / 2 ^ 24) := by
    generalize y ^ 2 = Q at *
    have q2 : Q * Q ≤ 1 / 16 * (1 / 16) := mul_le_mul hQ hQ hQ0 (by norm_num)
    have q3 : Q * Q * Q ≤ 1 / 16 * (1 / 16) * (1 / 16) := mul_le_mul q2 hQ hQ0 (by norm_num)
    have q20 : 0 ≤ Q * Q := by positivity
    have q30 : 0 ≤ Q * Q * Q := by positivity
    have w1 : |Q * (1 / 6 - 0xaaaaab / 2 ^ 26)| ≤ 1 / 16 * (5 / 10 ^ 9) := abs_mul_le (by rw [abs_of_nonneg hQ0]; exact hQ) (by rw [abs_le]; constructor <;> norm_num)
    have w2 : |Q * Q * (0x888889 / 2 ^ 30 - 1 / 120)| ≤ 1 / 16 * (1 / 16) * (1 / 10 ^ 9) := abs_mul_le (by rw [abs_of_nonneg q20]; exact q2) (by rw [abs_le]; constructor <;> norm_num)
    have w3 : |Q * Q * Q * (1 / 5040 - Q / 362880 + Q * Q / 39916800)| ≤ 1 / 16 * (1 / 16) * (1 / 16) * (1 / 5040) :=
      abs_mul_le (by rw [abs_of_nonneg q30]; exact q3) (by rw [abs_le]; constructor <;> nlinarith)
    exact le_trans (abs_add_le' (abs_add_le' w1 w2) w3) (by norm_num)
  have h2 : |y + y ^ 3 * (y ^ 2 * (0x888889 / 2 ^ 30) - 0xaaaaab / 2 ^ 26) -
      (y - y ^ 3 / 6 + y ^ 5 / 120 - y ^ 7 / 5040 + y ^ 9 / 362880 - y ^ 11 / 39916800)| ≤ 829 / 1000 * (1 / 2 ^ 24) * |y| := by
    rw [e]; exact abs_mul_le hp le_rfl
  refine le_trans (abs_tri h2 ((abs_sub_comm _ _).le.trans (le_trans h ht))) ?_
  rw [← add_mul]
  exact mul_le_mul_of_nonneg_right (by norm_num) (abs_nonneg _)

theorem cf_trunc {y : ℝ} (hy : |y| ≤ 1 / 4) :
    |1 + y ^ 2 * (y ^ 2 * (0xaa5c5f / 2 ^ 28) - 0xffffe2 / 2 ^ 25) - Real.cos y| ≤ 175 / 100 * (1 / 2 ^ 24) := by
  have h := cos_taylor12 y (le_trans hy (by norm_num))
  have hQ : y ^ 2 ≤ 1 / 16 := by
    rw [← sq_abs]; exact le_trans (pow_le_pow_left₀ (abs_nonneg _) hy 2) (by norm_num)
  have hQ0 : 0 ≤ y ^ 2 := sq_nonneg y
  have ht : |y| ^ 12 * (13 / (479001600 * 12)) ≤ 1 / 2 ^ 40 := by
    have : |y| ^ 12 ≤ (1 / 4) ^ 12 := pow_le_pow_left₀ (abs_nonneg _) hy 12
    have := mul_le_mul_of_nonneg_right this (by norm_num : (0 : ℝ) ≤ 13 / (479001600 * 12))
    exact le_trans this (by norm_num)
  have e : 1 + y ^ 2 * (y ^ 2 * (0xaa5c5f / 2 ^ 28) - 0xffffe2 / 2 ^ 25) -
      (1 - y ^ 2 / 2 + y ^ 4 / 24 - y ^ 6 / 720 + y ^ 8 / 40320 - y ^ 10 / 3628800) =
      y ^ 2 * (1 / 2 - 0xffffe2 / 2 ^ 25) + y ^ 2 * y ^ 2 * (0xaa5c5f / 2 ^ 28 - 1 / 24) + y ^ 2 * y ^ 2 * y ^ 2 * (1 / 720) -
        y ^ 2 * y ^ 2 * (y ^ 2 * y ^ 2) * (1 / 40320 - y ^ 2 / 3628800) := by ring
  have hp : |1 + y ^ 2 * (y ^ 2 * (0xaa5c5f / 2 ^ 28) - 0xffffe2 / 2 ^ 25) -
      (1 - y ^ 2 / 2 + y ^ 4 / 24 - y ^ 6 / 720 + y ^ 8 / 40320 - y ^ 10 / 3628800)| ≤ 1747 / 1000 * (1 / 2 ^ 24) := by
    rw [e]
    generalize y ^ 2 = Q at *
    have w3 : |Q * Q * (Q * Q) * (1 / 40320 - Q / 3628800)| ≤ 1 / 16 * (1 / 16) * (1 / 16 * (1 / 16)) * (1 / 40320) :=
      abs_mul_le (abs_mul_le (abs_mul_le (by rw [abs_of_nonneg hQ0]; exact hQ) (by rw [abs_of_nonneg hQ0]; exact hQ))
        (abs_mul_le (by rw [abs_of_nonneg hQ0]; exact hQ) (by rw [abs_of_nonneg hQ0]; exact hQ))) (by rw [abs_le]; constructor <;> nlinarith)
    have q20 : 0 ≤ Q * Q := by positivity
    have w1 : |Q * (1 / 2 - 0xffffe2 / 2 ^ 25) + Q * Q * (0xaa5c5f / 2 ^ 28 - 1 / 24) + Q * Q * Q * (1 / 720)| ≤ 174 / 100 * (1 / 2 ^ 24) := by
      rw [abs_le]
      constructor
      · nlinarith [mul_nonneg hQ0 (sq_nonneg (Q - 0.027)), mul_nonneg hQ0 (sq_nonneg Q)]
      · have h1 : (1 / 2 - 0xffffe2 / 2 ^ 25) + Q * (0xaa5c5f / 2 ^ 28 - 1 / 24) + Q * Q * (1 / 720) ≤ 1.655 / 10 ^ 6 := by
          nlinarith [mul_nonneg hQ0 (sub_nonneg.2 hQ)]
        have h2 := mul_le_mul_of_nonneg_left h1 hQ0
        nlinarith
    rw [sub_eq_add_neg]
    exact le_trans (abs_add_le' w1 ((abs_neg _).le.trans w3)) (by norm_num)
  exact le_trans (abs_tri hp ((abs_sub_comm _ _).le.trans (le_trans h ht))) (by norm_num)

end Verif
