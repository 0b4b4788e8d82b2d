import Verif.Lemmas.SinCos5
import Verif.Lemmas.Dio

/-!
# Lemmas for double sine and cosine: relative accuracy of the reduced argument near multiples of `π/2`
-/

namespace Verif
open Fmt

theorem axis_eq {K : ℤ} (h : K % 4 = 0) (X : ℝ) : X - K * (Real.pi / 8) = X - ((K / 4 : ℤ) : ℝ) * (Real.pi / 2) := by
  have e : K = 4 * (K / 4) := by omega
  have : (K : ℝ) = 4 * ((K / 4 : ℤ) : ℝ) := by exact_mod_cast e
  rw [this]; ring

theorem small_axis_d {u X Y k e : ℝ} (hu : 0 < u) (hd : k * (Real.pi / 8) ≤ |X| + 0.197) (hk : 4 ≤ k)
    (hY : 1 / 2 ^ 74 * |X| * (Real.pi / 2) ≤ |Y|) (he : e ≤ (2 + 1 / 2 ^ 20) * u * |Y| + 1.52 / 2 ^ 67 * (k * u)) : e ≤ 575 * u * |Y| := by
  obtain ⟨p1, p2⟩ := pi_near
  have hk2 : k * 0.3926 ≤ k * (Real.pi / 8) := mul_le_mul_of_nonneg_left (by linarith) (by linarith)
  have h1 : 1 / 2 ^ 74 * |X| * 1.57 ≤ 1 / 2 ^ 74 * |X| * (Real.pi / 2) := mul_le_mul_of_nonneg_left (by linarith) (by positivity)
  have h2 : k ≤ 3 * |X| := by linarith
  have h3 : k * u ≤ 2 ^ 74 * 1.92 * |Y| * u := by
    refine mul_le_mul_of_nonneg_right ?_ hu.le
    have := le_trans h1 hY
    have e : 1 / 2 ^ 74 * |X| * 1.57 = |X| * 1.57 / 2 ^ 74 := by ring
    rw [e, div_le_iff₀ (by positivity)] at this
    linarith
  refine le_trans he ?_
  have : 0 ≤ u * |Y| := by positivity
  linarith

theorem ph_axis_d {u Y e : ℝ} (hu : 0 < u) (hY : 1 / 2 ^ 62 * (Real.pi / 2) ≤ |Y|)
    (he : e ≤ (2 + 1 / 2 ^ 40) * u * |Y| + 1.75 * (u / 2 ^ 53)) : e ≤ 575 * u * |Y| := by
  obtain ⟨p1, p2⟩ := pi_near
  have h1 : 1 / 2 ^ 62 * 1.5707 ≤ |Y| := le_trans (mul_le_mul_of_nonneg_left (by linarith) (by norm_num)) hY
  have h2 := mul_le_mul_of_nonneg_left h1 hu.le
  refine le_trans he ?_
  linarith

/-- the cosine of no double is zero or very small -/
theorem cos_lower_d {x : ℕ} (hx : binary64.Finite x) : 1 / 2 ^ 62 ≤ |Real.cos (binary64.val x)| := by
  obtain ⟨p1, p2⟩ := pi_near
  rcases le_total (1 / 8) |binary64.val x| with h | h
  · obtain ⟨n, hn⟩ : ∃ n : ℤ, n = round ((binary64.val x - Real.pi / 2) / Real.pi) := ⟨_, rfl⟩
    have h1 := abs_sub_round ((binary64.val x - Real.pi / 2) / Real.pi)
    rw [← hn] at h1
    obtain ⟨Z, hZ⟩ : ∃ Z : ℝ, Z = binary64.val x - Real.pi / 2 - n * Real.pi := ⟨_, rfl⟩
    have hZ2 : |Z| ≤ Real.pi / 2 := by
      have e : Z = ((binary64.val x - Real.pi / 2) / Real.pi - n) * Real.pi := by rw [hZ]; field_simp
      rw [e, abs_mul, abs_of_pos Real.pi_pos]
      have := mul_le_mul_of_nonneg_right h1 Real.pi_pos.le
      linarith
    have l := halfpi64 hx h (2 * n + 1)
    have e3 : binary64.val x - ((2 * n + 1 : ℤ) : ℝ) * (Real.pi / 2) = Z := by rw [hZ]; push_cast; ring
    rw [e3] at l
    have e4 : |Real.cos (binary64.val x)| = |Real.sin Z| := by
      have : binary64.val x = (Z + Real.pi / 2) + n * Real.pi := by rw [hZ]; ring
      rw [this, Real.cos_add_int_mul_pi, abs_mul, Real.cos_add_pi_div_two, abs_neg]
      rcases Int.even_or_odd n with h | h
      · rw [h.neg_one_zpow]; simp
      · rw [h.neg_one_zpow]; simp
    rw [e4]
    have h5 : 2 / Real.pi * |Z| ≤ |Real.sin Z| := Real.mul_abs_le_abs_sin hZ2
    refine le_trans ?_ h5
    have : 2 / Real.pi * (1 / 2 ^ 62 * (Real.pi / 2)) ≤ 2 / Real.pi * |Z| := mul_le_mul_of_nonneg_left l (by positivity)
    refine le_trans (le_of_eq ?_) this
    field_simp
  · have := Real.one_sub_sq_div_two_le_cos (x := binary64.val x)
    have h2 : binary64.val x ^ 2 ≤ (1 / 8) ^ 2 := by rw [← sq_abs]; exact pow_le_pow_left₀ (abs_nonneg _) h 2
    refine le_trans ?_ (le_abs_self _)
    norm_num at h2 ⊢
    linarith

theorem tan_aux' {u η s c S C r : ℝ} (hu : 0 < u) (hu2 : u ≤ 1 / 2 ^ 52) (hul : 1 / 2 ^ 53 ≤ u) (hη : 0 < η) (hη2 : η ≤ 1 / 2 ^ 200)
    (h1 : |s - S| ≤ 600 * u * |S| + 12 * η) (h2 : |c - C| ≤ 600 * u * |C| + 12 * η) (hC : 1 / 2 ^ 62 ≤ |C|) (hSC : S ^ 2 + C ^ 2 = 1)
    (hr : |r - s / c| ≤ u * |s / c| + η) : |r - S / C| ≤ 1202 * u * |S / C| + 30 * η := by
  have cp : 0 < |C| := lt_of_lt_of_le (by positivity) hC
  have hC0 : C ≠ 0 := abs_pos.1 cp
  have hsC : S / C * C = S := div_mul_cancel₀ _ hC0
  obtain ⟨T, hT⟩ : ∃ T, T = S / C := ⟨_, rfl⟩
  rw [← hT] at hsC ⊢
  have hST : |S| = |T| * |C| := by rw [← hsC, abs_mul]
  have tp := abs_nonneg T
  have key : ∀ {a : ℝ}, 1 / 2 ^ 62 ≤ a → 12 * η ≤ 1 / 1000 * u * a := by
    intro a ha
    have : 1 / 1000 * (1 / 2 ^ 53) * (1 / 2 ^ 62) ≤ 1 / 1000 * u * a :=
      mul_le_mul (mul_le_mul_of_nonneg_left hul (by norm_num)) ha (by positivity) (by positivity)
    have : (12 : ℝ) * (1 / 2 ^ 200) ≤ 1 / 1000 * (1 / 2 ^ 53) * (1 / 2 ^ 62) := by norm_num
    linarith
  have hcC : |c - C| ≤ 600.001 * u * |C| := by
    have := key hC
    linarith
  have hc1 : (1 - 1 / 2 ^ 40) * |C| ≤ |c| := by
    have : |C| ≤ |c| + 600.001 * u * |C| := abs_near (by rw [abs_sub_comm]; exact hcC) le_rfl
    have : 600.001 * u * |C| ≤ 1 / 2 ^ 40 * |C| := mul_le_mul_of_nonneg_right (by linarith) cp.le
    linarith
  have cp' : 0 < |c| := lt_of_lt_of_le (mul_pos (by norm_num) cp) hc1
  have hc0 : c ≠ 0 := abs_pos.1 cp'
  have hsS : |s - S| ≤ (600.001 * u * |T| + 24 * η) * |C| := by
    rcases le_total (1 / 2) |S| with h | h
    · have := key (le_trans (by norm_num) h)
      rw [hST] at this h1
      have : 0 ≤ 24 * η * |C| := by positivity
      linarith
    · rw [hST] at h1
      have hS2 : S ^ 2 ≤ (1 / 2) ^ 2 := by rw [← sq_abs]; exact pow_le_pow_left₀ (abs_nonneg _) h 2
      have hC2 : (1 : ℝ) / 2 ≤ |C| := by
        by_contra hc
        rw [not_le] at hc
        have : C ^ 2 ≤ (1 / 2) ^ 2 := by rw [← sq_abs]; exact pow_le_pow_left₀ (abs_nonneg _) hc.le 2
        norm_num at hS2 this
        linarith
      have k1 : 24 * η * (1 / 2) ≤ 24 * η * |C| := mul_le_mul_of_nonneg_left hC2 (by positivity)
      have k2 : 0 ≤ u * (|T| * |C|) := by positivity
      nlinarith
  have hd : |s / c - T| ≤ 1200.01 * u * |T| + 25 * η := by
    have e : s / c - T = ((s - S) - T * (c - C)) / c := by
      field_simp
      rw [← hsC]; ring
    rw [e, abs_div, div_le_iff₀ cp']
    have h3 : |(s - S) - T * (c - C)| ≤ (600.001 * u * |T| + 24 * η) * |C| + |T| * (600.001 * u * |C|) := by
      rw [sub_eq_add_neg]
      refine abs_add_le' hsS ?_
      rw [abs_neg, abs_mul]; exact mul_le_mul_of_nonneg_left hcC tp
    refine le_trans h3 ?_
    have k1 : 0 ≤ u * |T| := by positivity
    have k2 : (1200.01 * u * |T| + 25 * η) * ((1 - 1 / 2 ^ 40) * |C|) ≤ (1200.01 * u * |T| + 25 * η) * |c| :=
      mul_le_mul_of_nonneg_left hc1 (by positivity)
    refine le_trans ?_ k2
    have e2 : (600.001 * u * |T| + 24 * η) * |C| + |T| * (600.001 * u * |C|) = (1200.002 * (u * |T|) + 24 * η) * |C| := by ring
    rw [e2, ← mul_assoc (1200.01 * u * |T| + 25 * η)]
    refine mul_le_mul_of_nonneg_right ?_ cp.le
    nlinarith
  have hsc : |s / c| ≤ |T| + (1200.01 * u * |T| + 25 * η) := abs_near hd le_rfl
  have h4 := abs_tri hr hd
  refine le_trans h4 ?_
  have h5 := mul_le_mul_of_nonneg_left hsc hu.le
  have k1 : 0 ≤ u * |T| := by positivity
  have k2 : u * (u * |T|) ≤ 1 / 2 ^ 52 * (u * |T|) := mul_le_mul_of_nonneg_right hu2 k1
  have k3 : u * η ≤ 1 / 2 ^ 52 * η := mul_le_mul_of_nonneg_right hu2 hη.le
  nlinarith

end Verif
