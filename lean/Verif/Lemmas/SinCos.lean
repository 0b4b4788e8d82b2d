import Verif.Lemmas.PayneHanek2
import Verif.Lemmas.SinPoly
import Verif.Props.FpSupport

/-!
# Lemmas for double sine and cosine
-/

namespace Verif
open Fmt

theorem sqrt2_bounds : (1792728671193156477399422023278 : ℝ) / 2 ^ 100 ≤ √2 ∧ √2 ≤ (1792728671193156477399422023279 : ℝ) / 2 ^ 100 := by
  constructor
  · rw [Real.le_sqrt (by positivity) (by norm_num)]; norm_num
  · rw [Real.sqrt_le_left (by positivity)]; norm_num

theorem half_sqrt_near {a m e : ℝ} (ha : 0 ≤ a) (hm : e ≤ m) (he : 0 ≤ e) (h1 : (2 * (m - e)) ^ 2 ≤ a) (h2 : a ≤ (2 * (m + e)) ^ 2) : |m - √a / 2| ≤ e := by
  have h3 : 2 * (m - e) ≤ √a := (Real.le_sqrt (by linarith) ha).2 h1
  have h4 : √a ≤ 2 * (m + e) := (Real.sqrt_le_left (by linarith)).2 h2
  rw [abs_le]; constructor <;> linarith

theorem sin8_near : |(0x187de2a6aea963 : ℝ) / 2 ^ 54 - Real.sin (Real.pi / 8)| ≤ 1 / 2 ^ 54 := by
  rw [Real.sin_pi_div_eight]
  obtain ⟨a, b⟩ := sqrt2_bounds
  refine half_sqrt_near (by linarith) (by norm_num) (by positivity) ?_ ?_ <;> norm_num at a b ⊢ <;> linarith
theorem cos8_near : |(0x1d906bcf328d46 : ℝ) / 2 ^ 53 - Real.cos (Real.pi / 8)| ≤ 1 / 2 ^ 54 := by
  rw [Real.cos_pi_div_eight]
  obtain ⟨a, b⟩ := sqrt2_bounds
  refine half_sqrt_near (by linarith) (by norm_num) (by positivity) ?_ ?_ <;> norm_num at a b ⊢ <;> linarith
theorem sin4_near : |(0x16a09e667f3bcd : ℝ) / 2 ^ 53 - Real.sin (Real.pi / 4)| ≤ 1 / 2 ^ 54 := by
  rw [Real.sin_pi_div_four]
  exact half_sqrt_near (by norm_num) (by norm_num) (by positivity) (by norm_num) (by norm_num)

/-- first quadrant -/
theorem sinTab_first {k : ℕ} (hk : k < 8) : binary64.Finite (CC.sinKPi8.getD k 0) ∧
    |binary64.val (CC.sinKPi8.getD k 0) - Real.sin (k * (Real.pi / 8))| ≤ 1 / 2 ^ 54 ∧
    (k % 4 = 0 → binary64.val (CC.sinKPi8.getD k 0) = Real.sin (k * (Real.pi / 8))) := by
  have v1 : binary64.val 0x3FD87DE2A6AEA963 = 0x187de2a6aea963 / 2 ^ 54 := by
    rw [lit64 false 0x187de2a6aea963 54 (by decide +kernel) (by decide +kernel) (by decide +kernel) (by decide +kernel)]; simp [sg]
  have v2 : binary64.val 0x3FE6A09E667F3BCD = 0x16a09e667f3bcd / 2 ^ 53 := by
    rw [lit64 false 0x16a09e667f3bcd 53 (by decide +kernel) (by decide +kernel) (by decide +kernel) (by decide +kernel)]; simp [sg]
  have v3 : binary64.val 0x3FED906BCF328D46 = 0x1d906bcf328d46 / 2 ^ 53 := by
    rw [lit64 false 0x1d906bcf328d46 53 (by decide +kernel) (by decide +kernel) (by decide +kernel) (by decide +kernel)]; simp [sg]
  have v4 : binary64.val 0x3FF0000000000000 = 1 := by
    rw [lit64 false (2 ^ 52) 52 (by decide +kernel) (by decide +kernel) (by decide +kernel) (by decide +kernel)]; norm_num [sg]
  have v0 : binary64.val 0 = 0 := (binary64.val_eq_zero_iff 0).2 (by decide +kernel)
  interval_cases k
  · refine ⟨by decide +kernel, ?_, fun _ => ?_⟩ <;> simp [CC.sinKPi8, v0]
  · refine ⟨by decide +kernel, ?_, fun h => absurd h (by decide)⟩
    change |binary64.val 0x3FD87DE2A6AEA963 - _| ≤ _
    rw [v1, Nat.cast_one, one_mul]; exact sin8_near
  · refine ⟨by decide +kernel, ?_, fun h => absurd h (by decide)⟩
    change |binary64.val 0x3FE6A09E667F3BCD - _| ≤ _
    rw [v2, show ((2 : ℕ) : ℝ) * (Real.pi / 8) = Real.pi / 4 by push_cast; ring]; exact sin4_near
  · refine ⟨by decide +kernel, ?_, fun h => absurd h (by decide)⟩
    change |binary64.val 0x3FED906BCF328D46 - _| ≤ _
    rw [v3, show ((3 : ℕ) : ℝ) * (Real.pi / 8) = Real.pi / 2 - Real.pi / 8 by push_cast; ring, Real.sin_pi_div_two_sub]; exact cos8_near
  · have e : ((4 : ℕ) : ℝ) * (Real.pi / 8) = Real.pi / 2 := by push_cast; ring
    refine ⟨by decide +kernel, ?_, fun _ => ?_⟩
    · change |binary64.val 0x3FF0000000000000 - _| ≤ _
      rw [v4, e, Real.sin_pi_div_two]; simp
    · change binary64.val 0x3FF0000000000000 = _
      rw [v4, e, Real.sin_pi_div_two]
  · refine ⟨by decide +kernel, ?_, fun h => absurd h (by decide)⟩
    change |binary64.val 0x3FED906BCF328D46 - _| ≤ _
    rw [v3, show ((5 : ℕ) : ℝ) * (Real.pi / 8) = Real.pi / 8 + Real.pi / 2 by push_cast; ring, Real.sin_add_pi_div_two]; exact cos8_near
  · refine ⟨by decide +kernel, ?_, fun h => absurd h (by decide)⟩
    change |binary64.val 0x3FE6A09E667F3BCD - _| ≤ _
    rw [v2, show ((6 : ℕ) : ℝ) * (Real.pi / 8) = Real.pi - Real.pi / 4 by push_cast; ring, Real.sin_pi_sub]; exact sin4_near
  · refine ⟨by decide +kernel, ?_, fun h => absurd h (by decide)⟩
    change |binary64.val 0x3FD87DE2A6AEA963 - _| ≤ _
    rw [v1, show ((7 : ℕ) : ℝ) * (Real.pi / 8) = Real.pi - Real.pi / 8 by push_cast; ring, Real.sin_pi_sub]; exact sin8_near

theorem sinTab_neg {k : ℕ} (hk : k < 8) : binary64.Finite (CC.sinKPi8.getD (k + 8) 0) ∧
    binary64.val (CC.sinKPi8.getD (k + 8) 0) = -binary64.val (CC.sinKPi8.getD k 0) := by
  have h : binary64.Finite (CC.sinKPi8.getD (k + 8) 0) ∧ (binary64.val (CC.sinKPi8.getD k 0) = 0 ∧ CC.sinKPi8.getD (k + 8) 0 = CC.sinKPi8.getD k 0 ∨
      CC.sinKPi8.getD (k + 8) 0 = binary64.hneg (CC.sinKPi8.getD k 0)) := by
    have v0 : binary64.val 0 = 0 := (binary64.val_eq_zero_iff 0).2 (by decide +kernel)
    interval_cases k
    · exact ⟨by decide +kernel, Or.inl ⟨v0, by decide +kernel⟩⟩
    all_goals exact ⟨by decide +kernel, Or.inr (by decide +kernel)⟩
  refine ⟨h.1, ?_⟩
  rcases h.2 with ⟨h1, h2⟩ | h2
  · rw [h2, h1, neg_zero]
  · rw [h2, binary64.val_hneg]

/-- The table: `sin(k π/8)` to within `2^-54`, exactly for multiples of `π/2`. -/
theorem sinTab_spec {k : ℕ} (hk : k < 16) : binary64.Finite (CC.sinKPi8.getD k 0) ∧
    |binary64.val (CC.sinKPi8.getD k 0) - Real.sin (k * (Real.pi / 8))| ≤ 1 / 2 ^ 54 ∧
    (k % 4 = 0 → binary64.val (CC.sinKPi8.getD k 0) = Real.sin (k * (Real.pi / 8))) := by
  by_cases h : k < 8
  · exact sinTab_first h
  · obtain ⟨j, rfl⟩ : ∃ j, k = j + 8 := ⟨k - 8, by omega⟩
    have hj : j < 8 := by omega
    obtain ⟨a, b, c⟩ := sinTab_first hj
    obtain ⟨d, e⟩ := sinTab_neg hj
    have es : Real.sin (((j + 8 : ℕ) : ℝ) * (Real.pi / 8)) = -Real.sin (j * (Real.pi / 8)) := by
      rw [← Real.sin_add_pi]; congr 1; push_cast; ring
    rw [e, es]
    refine ⟨d, ?_, fun h4 => by rw [c (by omega)]⟩
    rw [neg_sub_neg, abs_sub_comm]; exact b

/-- One Horner step: `q ≈ Q`, `p ≈ P`, `r ≈ q p + c`. -/
theorem hstep {u η q Q p P c r d B C d' : ℝ} (hu : 0 < u) (hu2 : u ≤ 1 / 2 ^ 52) (hη : η ≤ u / 2 ^ 100) (hq : |q - Q| ≤ 41 / 1000 * u) (hQ : |Q| ≤ 4 / 100)
    (hp : |p - P| ≤ d * u) (hd : d ≤ 2) (hP : |P| ≤ B) (hc : |c| ≤ C)
    (hr : |r - (q * p + c)| ≤ u * |q * p + c| + (1 + 1 / 2 ^ 50) * u * |q * p| + 3 * η)
    (hd' : 41 / 1000 * d + 41 / 1000 * B + C + 83 / 1000 * (B + 1 / 2 ^ 40) + 1 / 2 ^ 50 ≤ d') : |r - (Q * P + c)| ≤ d' * u := by
  have hB : 0 ≤ B := le_trans (abs_nonneg _) hP
  have hqb : |q| ≤ 401 / 10000 := by
    refine le_trans (abs_near hq hQ) ?_
    have : (41 : ℝ) / 1000 * (1 / 2 ^ 52) ≤ 1 / 10000 := by norm_num
    linarith
  have hdu : d * u ≤ 1 / 2 ^ 40 := by
    have h1 : d * u ≤ 2 * u := mul_le_mul_of_nonneg_right hd hu.le
    have : 2 * ((1 : ℝ) / 2 ^ 52) ≤ 1 / 2 ^ 40 := by norm_num
    linarith
  have hpb : |p| ≤ B + 1 / 2 ^ 40 := le_trans (abs_near hp hP) (by linarith)
  have hqp := abs_mul_le hqb hpb
  have h1 : |q * p + c - (Q * P + c)| ≤ 401 / 10000 * (d * u) + 41 / 1000 * u * B := by
    have e : q * p + c - (Q * P + c) = q * (p - P) + (q - Q) * P := by ring
    rw [e]; exact abs_add_le' (abs_mul_le hqb hp) (abs_mul_le hq hP)
  have h2 := abs_add_le' hqp hc
  have h3 := mul_le_mul_of_nonneg_left h2 hu.le
  have h4 := mul_le_mul_of_nonneg_left hqp (by positivity : 0 ≤ (1 + 1 / 2 ^ 50) * u)
  have h5 := abs_tri hr h1
  have h6 := mul_le_mul_of_nonneg_right hd' hu.le
  refine le_trans h5 (le_trans ?_ h6)
  have h7 : 3 * η ≤ 1 / 2 ^ 50 * u := by
    have : 3 * (u / 2 ^ 100) ≤ 1 / 2 ^ 50 * u := by
      have : 3 * (u / 2 ^ 100) = 3 / 2 ^ 100 * u := by ring
      rw [this]; exact mul_le_mul_of_nonneg_right (by norm_num) hu.le
    linarith
  have h8 : (1 + 1 / 2 ^ 50) * u * (401 / 10000 * (B + 1 / 2 ^ 40)) ≤ 42 / 1000 * (u * (B + 1 / 2 ^ 40)) := by
    have e : (1 + 1 / 2 ^ 50) * u * (401 / 10000 * (B + 1 / 2 ^ 40)) = (1 + 1 / 2 ^ 50) * (401 / 10000) * (u * (B + 1 / 2 ^ 40)) := by ring
    rw [e]; exact mul_le_mul_of_nonneg_right (by norm_num) (by positivity)
  have h9 : 0 ≤ u * (B + 1 / 2 ^ 40) := by positivity
  have h10 : 0 ≤ d * u := le_trans (abs_nonneg _) hp
  nlinarith

theorem eta_ru (md : Mode) : eta ≤ ru md / 2 ^ 100 := by
  have h1 := eta_le
  have h2 := ru_ge md
  have : (1 : ℝ) / 2 ^ 200 ≤ 1 / 2 ^ 53 / 2 ^ 100 := by norm_num
  have : (1 : ℝ) / 2 ^ 53 / 2 ^ 100 ≤ ru md / 2 ^ 100 := div_le_div_of_nonneg_right h2 (by positivity)
  linarith

theorem hstep64 (fused : Bool) (md : Mode) {q p c : ℕ} {Q P d B C : ℝ} (d' : ℝ) (fq : binary64.Finite q) (fp : binary64.Finite p) (fc : binary64.Finite c)
    (hq : |binary64.val q - Q| ≤ 41 / 1000 * ru md) (hQ : |Q| ≤ 4 / 100) (hp : |binary64.val p - P| ≤ d * ru md) (hd : d ≤ 2) (hP : |P| ≤ B) (hB : B ≤ 1)
    (hc : |binary64.val c| ≤ C) (hC : C ≤ 1)
    (hd' : 41 / 1000 * d + 41 / 1000 * B + C + 83 / 1000 * (B + 1 / 2 ^ 40) + 1 / 2 ^ 50 ≤ d') :
    binary64.Finite (CC.multiplyAdd binary64 fused md q p c) ∧ |binary64.val (CC.multiplyAdd binary64 fused md q p c) - (Q * P + binary64.val c)| ≤ d' * ru md := by
  have hu := ru_pos md
  have hu2 := ru_le md
  have hqb : |binary64.val q| ≤ 1 := by
    refine le_trans (abs_near hq hQ) ?_
    have : (41 : ℝ) / 1000 * (1 / 2 ^ 52) ≤ 1 / 10000 := by norm_num
    linarith
  have hpb : |binary64.val p| ≤ 2 := by
    refine le_trans (abs_near hp hP) ?_
    have h1 : d * ru md ≤ 2 * ru md := mul_le_mul_of_nonneg_right hd hu.le
    have : 2 * ((1 : ℝ) / 2 ^ 52) ≤ 1 := by norm_num
    linarith
  obtain ⟨a, b⟩ := ma64_err fused md fq fp fc (le_trans (abs_mul_le hqb hpb) (by norm_num)) (le_trans (le_trans hc hC) (by norm_num))
  exact ⟨a, hstep hu hu2 (eta_ru md) hq hQ hp hd hP hc b hd'⟩

theorem poly_bound {Q P c B C B' : ℝ} (hQ : |Q| ≤ 4 / 100) (hP : |P| ≤ B) (hc : |c| ≤ C) (h : 4 / 100 * B + C ≤ B') : |Q * P + c| ≤ B' :=
  le_trans (abs_add_le' (abs_mul_le hQ hP) hc) h

theorem val_sp1 : binary64.Finite (CC.sinPoly.getD 1 0) ∧ binary64.val (CC.sinPoly.getD 1 0) = -(0x15555555555555 / 2 ^ 55) := by
  refine ⟨by decide +kernel, ?_⟩
  rw [lit64 true 0x15555555555555 55 (by decide +kernel) (by decide +kernel) (by decide +kernel) (by decide +kernel)]; simp [sg]
theorem val_sp2 : binary64.Finite (CC.sinPoly.getD 2 0) ∧ binary64.val (CC.sinPoly.getD 2 0) = (0x11111111111111 / 2 ^ 59) := by
  refine ⟨by decide +kernel, ?_⟩
  rw [lit64 false 0x11111111111111 59 (by decide +kernel) (by decide +kernel) (by decide +kernel) (by decide +kernel)]; simp [sg]
theorem val_sp3 : binary64.Finite (CC.sinPoly.getD 3 0) ∧ binary64.val (CC.sinPoly.getD 3 0) = -(0x1a01a01a01a01a / 2 ^ 65) := by
  refine ⟨by decide +kernel, ?_⟩
  rw [lit64 true 0x1a01a01a01a01a 65 (by decide +kernel) (by decide +kernel) (by decide +kernel) (by decide +kernel)]; simp [sg]
theorem val_sp4 : binary64.Finite (CC.sinPoly.getD 4 0) ∧ binary64.val (CC.sinPoly.getD 4 0) = (0x171de3a556c734 / 2 ^ 71) := by
  refine ⟨by decide +kernel, ?_⟩
  rw [lit64 false 0x171de3a556c734 71 (by decide +kernel) (by decide +kernel) (by decide +kernel) (by decide +kernel)]; simp [sg]
theorem val_sp5 : binary64.Finite (CC.sinPoly.getD 5 0) ∧ binary64.val (CC.sinPoly.getD 5 0) = -(0x1ae64567f544e4 / 2 ^ 78) := by
  refine ⟨by decide +kernel, ?_⟩
  rw [lit64 true 0x1ae64567f544e4 78 (by decide +kernel) (by decide +kernel) (by decide +kernel) (by decide +kernel)]; simp [sg]
theorem val_cp1 : binary64.Finite (CC.cosPoly.getD 1 0) ∧ binary64.val (CC.cosPoly.getD 1 0) = -(0x10000000000000 / 2 ^ 53) := by
  refine ⟨by decide +kernel, ?_⟩
  rw [lit64 true 0x10000000000000 53 (by decide +kernel) (by decide +kernel) (by decide +kernel) (by decide +kernel)]; simp [sg]
theorem val_cp2 : binary64.Finite (CC.cosPoly.getD 2 0) ∧ binary64.val (CC.cosPoly.getD 2 0) = (0x155555555554f0 / 2 ^ 57) := by
  refine ⟨by decide +kernel, ?_⟩
  rw [lit64 false 0x155555555554f0 57 (by decide +kernel) (by decide +kernel) (by decide +kernel) (by decide +kernel)]; simp [sg]
theorem val_cp3 : binary64.Finite (CC.cosPoly.getD 3 0) ∧ binary64.val (CC.cosPoly.getD 3 0) = -(0x16c16c16b84c68 / 2 ^ 62) := by
  refine ⟨by decide +kernel, ?_⟩
  rw [lit64 true 0x16c16c16b84c68 62 (by decide +kernel) (by decide +kernel) (by decide +kernel) (by decide +kernel)]; simp [sg]
theorem val_cp4 : binary64.Finite (CC.cosPoly.getD 4 0) ∧ binary64.val (CC.cosPoly.getD 4 0) = (0x1a019f88d4441e / 2 ^ 68) := by
  refine ⟨by decide +kernel, ?_⟩
  rw [lit64 false 0x1a019f88d4441e 68 (by decide +kernel) (by decide +kernel) (by decide +kernel) (by decide +kernel)]; simp [sg]
theorem val_cp5 : binary64.Finite (CC.cosPoly.getD 5 0) ∧ binary64.val (CC.cosPoly.getD 5 0) = -(0x127a8a5f9090d7 / 2 ^ 74) := by
  refine ⟨by decide +kernel, ?_⟩
  rw [lit64 true 0x127a8a5f9090d7 74 (by decide +kernel) (by decide +kernel) (by decide +kernel) (by decide +kernel)]; simp [sg]

/-- the sine polynomial in `y^2` -/
noncomputable def SP (Q : ℝ) : ℝ :=
  Q * (Q * (Q * (Q * (-(0x1ae64567f544e4 / 2 ^ 78)) + 0x171de3a556c734 / 2 ^ 71) + -(0x1a01a01a01a01a / 2 ^ 65)) + 0x11111111111111 / 2 ^ 59) + -(0x15555555555555 / 2 ^ 55)
/-- the cosine polynomial in `y^2` -/
noncomputable def CP (Q : ℝ) : ℝ :=
  Q * (Q * (Q * (Q * (-(0x127a8a5f9090d7 / 2 ^ 74)) + 0x1a019f88d4441e / 2 ^ 68) + -(0x16c16c16b84c68 / 2 ^ 62)) + 0x155555555554f0 / 2 ^ 57) + -(0x10000000000000 / 2 ^ 53)

theorem sp_float (fused : Bool) (md : Mode) {q : ℕ} {Q : ℝ} (fq : binary64.Finite q) (hq : |binary64.val q - Q| ≤ 41 / 1000 * ru md) (hQ : |Q| ≤ 4 / 100) (r : ℕ)
    (hr : r = CC.multiplyAdd binary64 fused md q (CC.multiplyAdd binary64 fused md q (CC.multiplyAdd binary64 fused md q
      (CC.multiplyAdd binary64 fused md q (CC.sinPoly.getD 5 0) (CC.sinPoly.getD 4 0)) (CC.sinPoly.getD 3 0)) (CC.sinPoly.getD 2 0)) (CC.sinPoly.getD 1 0)) :
    binary64.Finite r ∧ |binary64.val r - SP Q| ≤ 17 / 100 * ru md ∧ |SP Q| ≤ 168 / 1000 := by
  obtain ⟨f1, v1⟩ := val_sp1
  obtain ⟨f2, v2⟩ := val_sp2
  obtain ⟨f3, v3⟩ := val_sp3
  obtain ⟨f4, v4⟩ := val_sp4
  obtain ⟨f5, v5⟩ := val_sp5
  have b5 : |-((0x1ae64567f544e4 : ℝ) / 2 ^ 78)| ≤ 1 / 10 ^ 7 := by rw [abs_neg, abs_of_pos (by positivity)]; norm_num
  have b4 : |(0x171de3a556c734 : ℝ) / 2 ^ 71| ≤ 1 / 10 ^ 5 := by rw [abs_of_pos (by positivity)]; norm_num
  have b3 : |-((0x1a01a01a01a01a : ℝ) / 2 ^ 65)| ≤ 2 / 10 ^ 4 := by rw [abs_neg, abs_of_pos (by positivity)]; norm_num
  have b2 : |(0x11111111111111 : ℝ) / 2 ^ 59| ≤ 84 / 10 ^ 4 := by rw [abs_of_pos (by positivity)]; norm_num
  have b1 : |-((0x15555555555555 : ℝ) / 2 ^ 55)| ≤ 1667 / 10 ^ 4 := by rw [abs_neg, abs_of_pos (by positivity)]; norm_num
  have c4 := poly_bound (B' := 2 / 10 ^ 5) hQ b5 b4 (by norm_num)
  have c3 := poly_bound (B' := 3 / 10 ^ 4) hQ c4 b3 (by norm_num)
  have c2 := poly_bound (B' := 85 / 10 ^ 4) hQ c3 b2 (by norm_num)
  have c1 := poly_bound (B' := 168 / 1000) hQ c2 b1 (by norm_num)
  obtain ⟨g4, e4⟩ := hstep64 fused md (2 / 10 ^ 5) fq f5 f4 hq hQ (P := binary64.val (CC.sinPoly.getD 5 0)) (d := 0) (by simp) (by norm_num) (v5 ▸ b5) (by norm_num) (v4 ▸ b4) (by norm_num) (by norm_num)
  rw [v5, v4] at e4
  obtain ⟨g3, e3⟩ := hstep64 fused md (3 / 10 ^ 4) fq g4 f3 hq hQ e4 (by norm_num) c4 (by norm_num) (v3 ▸ b3) (by norm_num) (by norm_num)
  rw [v3] at e3
  obtain ⟨g2, e2⟩ := hstep64 fused md (85 / 10 ^ 4) fq g3 f2 hq hQ e3 (by norm_num) c3 (by norm_num) (v2 ▸ b2) (by norm_num) (by norm_num)
  rw [v2] at e2
  obtain ⟨g1, e1⟩ := hstep64 fused md (17 / 100) fq g2 f1 hq hQ e2 (by norm_num) c2 (by norm_num) (v1 ▸ b1) (by norm_num) (by norm_num)
  rw [v1] at e1
  rw [← hr] at g1 e1
  exact ⟨g1, e1, c1⟩

theorem cp_float (fused : Bool) (md : Mode) {q : ℕ} {Q : ℝ} (fq : binary64.Finite q) (hq : |binary64.val q - Q| ≤ 41 / 1000 * ru md) (hQ : |Q| ≤ 4 / 100) (r : ℕ)
    (hr : r = CC.multiplyAdd binary64 fused md q (CC.multiplyAdd binary64 fused md q (CC.multiplyAdd binary64 fused md q
      (CC.multiplyAdd binary64 fused md q (CC.cosPoly.getD 5 0) (CC.cosPoly.getD 4 0)) (CC.cosPoly.getD 3 0)) (CC.cosPoly.getD 2 0)) (CC.cosPoly.getD 1 0)) :
    binary64.Finite r ∧ |binary64.val r - CP Q| ≤ 51 / 100 * ru md ∧ |CP Q| ≤ 502 / 1000 := by
  obtain ⟨f1, v1⟩ := val_cp1
  obtain ⟨f2, v2⟩ := val_cp2
  obtain ⟨f3, v3⟩ := val_cp3
  obtain ⟨f4, v4⟩ := val_cp4
  obtain ⟨f5, v5⟩ := val_cp5
  have b5 : |-((0x127a8a5f9090d7 : ℝ) / 2 ^ 74)| ≤ 1 / 10 ^ 6 := by rw [abs_neg, abs_of_pos (by positivity)]; norm_num
  have b4 : |(0x1a019f88d4441e : ℝ) / 2 ^ 68| ≤ 3 / 10 ^ 5 := by rw [abs_of_pos (by positivity)]; norm_num
  have b3 : |-((0x16c16c16b84c68 : ℝ) / 2 ^ 62)| ≤ 14 / 10 ^ 4 := by rw [abs_neg, abs_of_pos (by positivity)]; norm_num
  have b2 : |(0x155555555554f0 : ℝ) / 2 ^ 57| ≤ 417 / 10 ^ 4 := by rw [abs_of_pos (by positivity)]; norm_num
  have b1 : |-((0x10000000000000 : ℝ) / 2 ^ 53)| ≤ 1 / 2 := by rw [abs_neg, abs_of_pos (by positivity)]; norm_num
  have c4 := poly_bound (B' := 4 / 10 ^ 5) hQ b5 b4 (by norm_num)
  have c3 := poly_bound (B' := 15 / 10 ^ 4) hQ c4 b3 (by norm_num)
  have c2 := poly_bound (B' := 42 / 10 ^ 3) hQ c3 b2 (by norm_num)
  have c1 := poly_bound (B' := 502 / 1000) hQ c2 b1 (by norm_num)
  obtain ⟨g4, e4⟩ := hstep64 fused md (4 / 10 ^ 5) fq f5 f4 hq hQ (P := binary64.val (CC.cosPoly.getD 5 0)) (d := 0) (by simp) (by norm_num) (v5 ▸ b5) (by norm_num) (v4 ▸ b4) (by norm_num) (by norm_num)
  rw [v5, v4] at e4
  obtain ⟨g3, e3⟩ := hstep64 fused md (15 / 10 ^ 4) fq g4 f3 hq hQ e4 (by norm_num) c4 (by norm_num) (v3 ▸ b3) (by norm_num) (by norm_num)
  rw [v3] at e3
  obtain ⟨g2, e2⟩ := hstep64 fused md (42 / 10 ^ 3) fq g3 f2 hq hQ e3 (by norm_num) c3 (by norm_num) (v2 ▸ b2) (by norm_num) (by norm_num)
  rw [v2] at e2
  obtain ⟨g1, e1⟩ := hstep64 fused md (51 / 100) fq g2 f1 hq hQ e2 (by norm_num) c2 (by norm_num) (v1 ▸ b1) (by norm_num) (by norm_num)
  rw [v1] at e1
  rw [← hr] at g1 e1
  exact ⟨g1, e1, c1⟩

theorem sum5 {Q d1 d2 d3 d4 d5 D1 D2 D3 D4 D5 : ℝ} (hQ : |Q| ≤ 4 / 100) (h1 : |d1| ≤ D1) (h2 : |d2| ≤ D2) (h3 : |d3| ≤ D3) (h4 : |d4| ≤ D4) (h5 : |d5| ≤ D5) :
    |Q * (Q * (Q * (Q * (Q * d5 + d4) + d3) + d2) + d1)| ≤ 4 / 100 * (4 / 100 * (4 / 100 * (4 / 100 * (4 / 100 * D5 + D4) + D3) + D2) + D1) :=
  abs_mul_le hQ (abs_add_le' (abs_mul_le hQ (abs_add_le' (abs_mul_le hQ (abs_add_le' (abs_mul_le hQ (abs_add_le' (abs_mul_le hQ h5) h4)) h3)) h2)) h1)

/-- The sine polynomial against the sine, relative to `y`. -/
theorem SP_spec {y : ℝ} (hy : |y| ≤ 1 / 5) : |y + y ^ 3 * SP (y ^ 2) - Real.sin y| ≤ 3 / 10 ^ 18 * |y| := by
  have hQ : |y ^ 2| ≤ 4 / 100 := by rw [abs_pow]; exact le_trans (pow_le_pow_left₀ (abs_nonneg _) hy 2) (by norm_num)
  have ht := sin_taylor13 y (le_trans hy (by norm_num))
  have e1 : y + y ^ 3 * SP (y ^ 2) - (y - y ^ 3 / 6 + y ^ 5 / 120 - y ^ 7 / 5040 + y ^ 9 / 362880 - y ^ 11 / 39916800) =
      y * (y ^ 2 * (y ^ 2 * (y ^ 2 * (y ^ 2 * (y ^ 2 * (-(0x1ae64567f544e4 / 2 ^ 78) + 1 / 39916800) + (0x171de3a556c734 / 2 ^ 71 - 1 / 362880)) +
        (-(0x1a01a01a01a01a / 2 ^ 65) + 1 / 5040)) + (0x11111111111111 / 2 ^ 59 - 1 / 120)) + (-(0x15555555555555 / 2 ^ 55) + 1 / 6))) := by
    unfold SP; ring
  have h5 : |-((0x1ae64567f544e4 : ℝ) / 2 ^ 78) + 1 / 39916800| ≤ 1 / 10 ^ 20 := by rw [abs_le]; constructor <;> norm_num
  have h4 : |(0x171de3a556c734 : ℝ) / 2 ^ 71 - 1 / 362880| ≤ 1 / 10 ^ 20 := by rw [abs_le]; constructor <;> norm_num
  have h3 : |-((0x1a01a01a01a01a : ℝ) / 2 ^ 65) + 1 / 5040| ≤ 1 / 10 ^ 20 := by rw [abs_le]; constructor <;> norm_num
  have h2 : |(0x11111111111111 : ℝ) / 2 ^ 59 - 1 / 120| ≤ 1 / 10 ^ 18 := by rw [abs_le]; constructor <;> norm_num
  have h1 : |-((0x15555555555555 : ℝ) / 2 ^ 55) + 1 / 6| ≤ 1 / 10 ^ 17 := by rw [abs_le]; constructor <;> norm_num
  have h6 := sum5 hQ h1 h2 h3 h4 h5
  have h7 : |y + y ^ 3 * SP (y ^ 2) - (y - y ^ 3 / 6 + y ^ 5 / 120 - y ^ 7 / 5040 + y ^ 9 / 362880 - y ^ 11 / 39916800)| ≤ |y| * (1 / 10 ^ 18) := by
    rw [e1, abs_mul]; exact mul_le_mul_of_nonneg_left (le_trans h6 (by norm_num)) (abs_nonneg _)
  have h8 : |y| ^ 13 * (14 / (6227020800 * 13)) ≤ |y| * (2 / 10 ^ 18) := by
    have : |y| ^ 13 * ((14 : ℝ) / (6227020800 * 13)) = |y| * (|y| ^ 12 * (14 / (6227020800 * 13))) := by ring
    rw [this]
    refine mul_le_mul_of_nonneg_left ?_ (abs_nonneg _)
    have : |y| ^ 12 ≤ (1 / 5) ^ 12 := pow_le_pow_left₀ (abs_nonneg _) hy 12
    refine le_trans (mul_le_mul_of_nonneg_right this (by positivity)) (by norm_num)
  rw [abs_sub_comm] at ht
  have := abs_tri h7 ht
  linarith

theorem CP_spec {y : ℝ} (hy : |y| ≤ 1 / 5) : |1 + y ^ 2 * CP (y ^ 2) - Real.cos y| ≤ 65 / 10 ^ 18 := by
  have hQ : |y ^ 2| ≤ 4 / 100 := by rw [abs_pow]; exact le_trans (pow_le_pow_left₀ (abs_nonneg _) hy 2) (by norm_num)
  have ht := cos_taylor12 y (le_trans hy (by norm_num))
  have e1 : 1 + y ^ 2 * CP (y ^ 2) - (1 - y ^ 2 / 2 + y ^ 4 / 24 - y ^ 6 / 720 + y ^ 8 / 40320 - y ^ 10 / 3628800) =
      y ^ 2 * (y ^ 2 * (y ^ 2 * (y ^ 2 * (y ^ 2 * (-(0x127a8a5f9090d7 / 2 ^ 74) + 1 / 3628800) + (0x1a019f88d4441e / 2 ^ 68 - 1 / 40320)) +
        (-(0x16c16c16b84c68 / 2 ^ 62) + 1 / 720)) + (0x155555555554f0 / 2 ^ 57 - 1 / 24)) + (-(0x10000000000000 / 2 ^ 53) + 1 / 2)) := by
    unfold CP; ring
  have h5 : |-((0x127a8a5f9090d7 : ℝ) / 2 ^ 74) + 1 / 3628800| ≤ 22 / 10 ^ 11 := by rw [abs_le]; constructor <;> norm_num
  have h4 : |(0x1a019f88d4441e : ℝ) / 2 ^ 68 - 1 / 40320| ≤ 83 / 10 ^ 13 := by rw [abs_le]; constructor <;> norm_num
  have h3 : |-((0x16c16c16b84c68 : ℝ) / 2 ^ 62) + 1 / 720| ≤ 13 / 10 ^ 14 := by rw [abs_le]; constructor <;> norm_num
  have h2 : |(0x155555555554f0 : ℝ) / 2 ^ 57 - 1 / 24| ≤ 71 / 10 ^ 17 := by rw [abs_le]; constructor <;> norm_num
  have h1 : |-((0x10000000000000 : ℝ) / 2 ^ 53) + 1 / 2| ≤ 0 := by rw [abs_le]; constructor <;> norm_num
  have h6 := sum5 hQ h1 h2 h3 h4 h5
  rw [← e1] at h6
  have h8 : |y| ^ 12 * (13 / (479001600 * 12)) ≤ 93 / 10 ^ 19 := by
    have : |y| ^ 12 ≤ (1 / 5) ^ 12 := pow_le_pow_left₀ (abs_nonneg _) hy 12
    refine le_trans (mul_le_mul_of_nonneg_right this (by positivity)) (by norm_num)
  rw [abs_sub_comm] at ht
  refine le_trans (abs_tri h6 (le_trans ht h8)) (by norm_num)

end Verif
