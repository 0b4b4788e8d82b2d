import Verif.Lemmas.PayneHanek
import Verif.Lemmas.FErr

/-!
# Lemmas for the Payne-Hanek reduction: from the accumulator to the reduced argument
-/

namespace Verif
open Fmt

/-- `π` to 240 bits -/
theorem pi_250 : (0x3243f6a8885a308d313198a2e03707344a4093822299f31d0082efa98ec4d77 : ℝ) / 2 ^ 248 ≤ Real.pi ∧
    Real.pi ≤ 0x3243f6a8885a308d313198a2e03707344a4093822299f31d0082efa98ec4f4b / 2 ^ 248 := by
  obtain ⟨a, b⟩ := pi_bounds (2 ^ 250) 54 16 0x3243f6a8885a308d313198a2e03707344a4093822299f31d0082efa98ec4d77
    0x3243f6a8885a308d313198a2e03707344a4093822299f31d0082efa98ec4f4b (by decide +kernel) (by decide +kernel) (by decide +kernel) (by decide +kernel)
  push_cast at a b
  constructor
  · rw [div_le_iff₀ (by positivity)]; linarith
  · rw [le_div_iff₀ (by positivity)]; linarith

theorem val_piHi : binary64.val CC.piOver8Hi = 0x1921fb54442d18 / 2 ^ 54 := by
  rw [lit64 false 0x1921fb54442d18 54 (by decide +kernel) (by decide +kernel) (by decide +kernel) (by decide +kernel)]
  simp [sg]
theorem val_piLo : binary64.val CC.piOver8Lo = 0x11a62633145c07 / 2 ^ 108 := by
  rw [lit64 false 0x11a62633145c07 108 (by decide +kernel) (by decide +kernel) (by decide +kernel) (by decide +kernel)]
  simp [sg]

theorem ph_y (rh L rl t1 t2 y R P HI LO u η : ℝ) (hu : 0 < u) (hu2 : u ≤ 1 / 2 ^ 52) (hul : 1 / 2 ^ 53 ≤ u) (hη : 0 < η) (hη2 : η ≤ 1 / 2 ^ 200)
    (hL : |L| ≤ 1 / 2 ^ 53) (hrl : |rl - L| ≤ (1 + 1 / 2 ^ 8) * (u / 2 ^ 53)) (hR : |rh + L - R| ≤ 1 / 2 ^ 127)
    (hHI : |HI| ≤ 0.3928) (hLO : |LO| ≤ 1 / 2 ^ 55) (hP : |P| ≤ 0.3928) (hP0 : 0.39 ≤ |P|) (hHP : |HI - P| ≤ 1.11 / 2 ^ 56) (hHLP : |HI + LO - P| ≤ 1 / 2 ^ 110)
    (h1 : |t1 - rl * HI| ≤ u * |rl * HI| + η)
    (h2 : |t2 - (rh * LO + t1)| ≤ u * |rh * LO + t1| + (1 + 1 / 2 ^ 50) * u * |rh * LO| + 3 * η)
    (h3 : |y - (rh * HI + t2)| ≤ u * |rh * HI + t2| + (1 + 1 / 2 ^ 50) * u * |rh * HI| + 3 * η) :
    |y - R * P| ≤ (2 + 1 / 2 ^ 40) * u * |R * P| + 1.75 * (u / 2 ^ 53) := by
  obtain ⟨w, hw⟩ : ∃ w, w = u / 2 ^ 53 := ⟨_, rfl⟩
  have ew : u * (1 / 2 ^ 53) = w := by rw [hw]; ring
  rw [← hw] at hrl ⊢
  have w1 : w ≤ 1 / 2 ^ 105 := by rw [hw]; rw [div_le_iff₀ (by positivity)]; exact le_trans hu2 (by norm_num)
  have w2 : 1 / 2 ^ 106 ≤ w := by rw [hw]; rw [le_div_iff₀ (by positivity)]; exact le_trans (by norm_num) hul
  have w3 : η ≤ 1 / 2 ^ 90 * w := by
    have : (1 : ℝ) / 2 ^ 200 ≤ 1 / 2 ^ 90 * (1 / 2 ^ 106) := by norm_num
    linarith
  have r0 := abs_nonneg rh
  have x0 : 0 ≤ u * |rh| := by positivity
  have x1 : u * (u * |rh|) ≤ 1 / 2 ^ 52 * (u * |rh|) := mul_le_mul_of_nonneg_right hu2 x0
  have x2 : u * w ≤ 1 / 2 ^ 52 * w := mul_le_mul_of_nonneg_right hu2 (by linarith)
  have x3 : u * η ≤ 1 / 2 ^ 52 * η := mul_le_mul_of_nonneg_right hu2 hη.le
  have a1 : |rl| ≤ (1 / 2 ^ 53) * (1 + 1 / 2 ^ 40) := le_trans (abs_near hrl hL) (by linarith)
  have a2 := abs_mul_le a1 hHI
  have a3 := mul_le_mul_of_nonneg_left a2 hu.le
  have a4 : |rl * HI - L * HI| ≤ (1 + 1 / 2 ^ 8) * w * 0.3928 := by rw [← sub_mul]; exact abs_mul_le hrl hHI
  have a5 : |t1 - L * HI| ≤ 0.7874 * w := le_trans (abs_tri h1 a4) (by linarith)
  have a6 : |t1| ≤ 0.393 * (1 / 2 ^ 53) := le_trans (abs_near a5 (abs_mul_le hL hHI)) (by linarith)
  have b1 : |rh * LO| ≤ |rh| * (1 / 2 ^ 55) := abs_mul_le le_rfl hLO
  have b2 := mul_le_mul_of_nonneg_left (abs_add_le' b1 a6) hu.le
  have b4 := mul_le_mul_of_nonneg_left b1 (by positivity : 0 ≤ (1 + 1 / 2 ^ 50) * u)
  have b5 : |rh * LO + t1 - (rh * LO + L * HI)| ≤ 0.7874 * w := by rw [add_sub_add_left_eq_sub]; exact a5
  have b6 : |t2 - (rh * LO + L * HI)| ≤ 2.01 / 2 ^ 55 * (u * |rh|) + 1.1806 * w := le_trans (abs_tri h2 b5) (by linarith)
  have x4 : u * |rh| ≤ 1 / 2 ^ 52 * |rh| := mul_le_mul_of_nonneg_right hu2 r0
  have b8 : |t2| ≤ 0.393 * (1 / 2 ^ 53) + 1.01 / 2 ^ 55 * |rh| :=
    le_trans (abs_near b6 (abs_add_le' b1 (abs_mul_le hL hHI))) (by linarith)
  have c1 : |rh * HI + t2 - R * P| ≤ 1 / 2 ^ 53 * (u * |rh|) + 1.3196 * w := by
    have e1 : rh * HI + t2 - R * P = (t2 - (rh * LO + L * HI)) + rh * (HI + LO - P) + L * (HI - P) + (rh + L - R) * P := by ring
    rw [e1]
    refine le_trans (abs_add_le' (abs_add_le' (abs_add_le' b6 (abs_mul_le le_rfl hHLP)) (abs_mul_le hL hHP)) (abs_mul_le hR hP)) ?_
    have : |rh| * (1 / 2 ^ 53) ≤ u * |rh| := by rw [mul_comm]; exact mul_le_mul_of_nonneg_right hul r0
    linarith
  have c2 : |rh * HI + t2| ≤ |R * P| + (1 / 2 ^ 53 * (u * |rh|) + 1.3196 * w) := abs_near c1 le_rfl
  have c3 : |rh * HI| ≤ |R * P| + (1 / 2 ^ 53 * (u * |rh|) + 1.3196 * w) + (0.393 * (1 / 2 ^ 53) + 1.01 / 2 ^ 55 * |rh|) := by
    have e2 : rh * HI = (rh * HI + t2) - t2 := by ring
    rw [e2]
    exact le_trans (abs_sub _ _) (add_le_add c2 b8)
  have d1 := mul_le_mul_of_nonneg_left c2 hu.le
  have d2 := mul_le_mul_of_nonneg_left c3 (by positivity : 0 ≤ (1 + 1 / 2 ^ 50) * u)
  have d3 := abs_tri h3 c1
  -- `rh` against `R`
  have e1 : |rh| ≤ |R| + 1 / 2 ^ 127 + 1 / 2 ^ 53 := by
    have : rh = (R + (rh + L - R)) + -L := by ring
    rw [this]
    exact abs_add_le' (abs_add_le' le_rfl hR) ((abs_neg _).le.trans hL)
  have e2 : 0.39 * |R| ≤ |R * P| := by rw [abs_mul, mul_comm]; exact mul_le_mul_of_nonneg_left hP0 (abs_nonneg _)
  have e3 : u * |rh| ≤ u * (|R * P| / 0.39 + 1 / 2 ^ 127 + 1 / 2 ^ 53) := by
    refine mul_le_mul_of_nonneg_left (le_trans e1 ?_) hu.le
    have : |R| ≤ |R * P| / 0.39 := by rw [le_div_iff₀ (by norm_num)]; linarith
    linarith
  have x5 : 0 ≤ u * |R * P| := by positivity
  ring_nf at ew d1 d2 d3 e3 x1 x2 x3 w3 x0 x5 ⊢
  linarith

theorem or4 {a b : ℕ} (hb : b < 16) : (a * 16) ||| b = a * 16 + b := by
  have := Nat.shiftLeft_add_eq_or_of_lt (i := 4) hb a
  rw [Nat.shiftLeft_eq] at this
  exact this.symm

/-- the words of the fraction -/
theorem ph_words {a0 a1 a2 a3 : ℕ} (h0 : a0 < 2 ^ 64) (h1 : a1 < 2 ^ 64) (h2 : a2 < 2 ^ 64) (h3 : a3 < 2 ^ 64) :
    ∃ k w0 w1 rest : ℕ, (a3 >>> 60) &&& 15 = k ∧ (((a3 &&& 0x0fffffffffffffff) <<< 4) % 2 ^ 64) ||| (a2 >>> 60) = w0 ∧
      ((a2 <<< 4) % 2 ^ 64) ||| (a1 >>> 60) = w1 ∧ ((((a3 &&& 0x0fffffffffffffff) >>> 59) &&& 1) != 0) = decide (2 ^ 63 ≤ w0) ∧
      k < 16 ∧ w0 < 2 ^ 64 ∧ w1 < 2 ^ 64 ∧ rest < 2 ^ 124 ∧
      accVal [a0, a1, a2, a3] = 2 ^ 252 * k + 2 ^ 188 * w0 + 2 ^ 124 * w1 + rest := by
  have e3 : a3 &&& 0x0fffffffffffffff = a3 % 2 ^ 60 := Nat.and_two_pow_sub_one_eq_mod a3 60
  have e4 : (a3 >>> 60) &&& 15 = a3 / 2 ^ 60 := by
    rw [show (15 : ℕ) = 2 ^ 4 - 1 from rfl, Nat.and_two_pow_sub_one_eq_mod, Nat.shiftRight_eq_div_pow]
    omega
  have e5 : ((a3 % 2 ^ 60) <<< 4) % 2 ^ 64 = (a3 % 2 ^ 60) * 16 := by
    rw [Nat.shiftLeft_eq]; omega
  have e6 : (a2 <<< 4) % 2 ^ 64 = (a2 % 2 ^ 60) * 16 := by
    rw [Nat.shiftLeft_eq]; omega
  have e7 : a2 >>> 60 < 16 := by rw [Nat.shiftRight_eq_div_pow]; omega
  have e8 : a1 >>> 60 < 16 := by rw [Nat.shiftRight_eq_div_pow]; omega
  have e9 : ((a3 % 2 ^ 60) >>> 59) &&& 1 = (a3 % 2 ^ 60) / 2 ^ 59 := by
    rw [Nat.and_one_is_mod, Nat.shiftRight_eq_div_pow]; omega
  refine ⟨a3 / 2 ^ 60, (a3 % 2 ^ 60) * 16 + a2 / 2 ^ 60, (a2 % 2 ^ 60) * 16 + a1 / 2 ^ 60, (a1 % 2 ^ 60) * 2 ^ 64 + a0, e4, ?_, ?_, ?_, ?_, ?_, ?_, ?_, ?_⟩
  · rw [e3, e5, or4 e7, Nat.shiftRight_eq_div_pow]
  · rw [e6, or4 e8, Nat.shiftRight_eq_div_pow]
  · rw [e3, e9]
    have hA : ((a3 % 2 ^ 60) / 2 ^ 59 ≠ 0) ↔ 2 ^ 63 ≤ (a3 % 2 ^ 60) * 16 + a2 / 2 ^ 60 := by omega
    rw [Bool.eq_iff_iff, bne_iff_ne, decide_eq_true_iff]
    exact hA
  · omega
  · omega
  · omega
  · omega
  · simp only [accVal_cons]
    have : accVal [] = 0 := rfl
    rw [this]
    omega

theorem ph_rhi (md : Mode) {w0 : ℕ} (h0 : w0 < 2 ^ 64) (up : Bool) (hup : up = decide (2 ^ 63 ≤ w0)) (r : ℕ)
    (hr : r = if up then binary64.hsub md (binary64.hmul md (binary64.ofInt md ((w0 >>> 11 : ℕ) : ℤ)) (CC.pow2 binary64 false (-53))) (CC.pow2 binary64 false 0)
      else binary64.hmul md (binary64.ofInt md ((w0 >>> 11 : ℕ) : ℤ)) (CC.pow2 binary64 false (-53))) :
    binary64.Finite r ∧ binary64.val r = ((w0 / 2 ^ 11 : ℕ) : ℝ) / 2 ^ 53 - (if up then 1 else 0) ∧ |binary64.val r| ≤ 1 / 2 := by
  rw [Nat.shiftRight_eq_div_pow] at hr
  set h := w0 / 2 ^ 11 with hh
  have hlt : h < 2 ^ 53 := by omega
  have hlt' : (h : ℝ) < 2 ^ 53 := by exact_mod_cast hlt
  have hnn : (0 : ℝ) ≤ h := Nat.cast_nonneg h
  obtain ⟨c1, c2⟩ := ofInt_ex64 md (z := (h : ℤ)) (by rw [abs_of_nonneg (by omega)]; omega)
  obtain ⟨p1, p2⟩ := pow2_64 false (-53) (by norm_num) (by norm_num)
  rw [sg_false, one_mul] at p2
  have e53 : (2 : ℝ) ^ (-53 : ℤ) = 1 / 2 ^ 53 := by rw [zpow_neg, one_div]; norm_cast
  have v1 : binary64.val (binary64.ofInt md (h : ℤ)) * binary64.val (CC.pow2 binary64 false (-53)) = (h : ℝ) / 2 ^ 53 := by
    rw [c2, p2, e53]; push_cast; ring
  have m1 : Mult (-53) ((h : ℝ) / 2 ^ 53) := ⟨h, by rw [e53]; push_cast; ring⟩
  have b1 : |(h : ℝ) / 2 ^ 53| ≤ 1 := by
    rw [abs_of_nonneg (by positivity), div_le_one (by positivity)]; exact hlt'.le
  have R1 := binary64.hmul_spec md c1 p1
  rw [v1] at R1
  obtain ⟨d1, d2⟩ := ex64 (-53) R1 m1 (by norm_num) (by norm_num; exact_mod_cast b1) (le_trans b1 (by norm_num))
  cases up
  · simp only [Bool.false_eq_true, if_false] at hr ⊢
    subst hr
    have hw : w0 < 2 ^ 63 := by simpa using hup.symm
    have h2 : (h : ℝ) ≤ 2 ^ 52 := by exact_mod_cast (by omega : h ≤ 2 ^ 52)
    refine ⟨d1, by rw [d2]; ring, ?_⟩
    rw [d2, abs_of_nonneg (by positivity), div_le_iff₀ (by positivity)]
    linarith
  · simp only [if_true] at hr ⊢
    subst hr
    have hw : 2 ^ 63 ≤ w0 := by simpa using hup.symm
    have h2 : (2 : ℝ) ^ 52 ≤ h := by exact_mod_cast (by omega : 2 ^ 52 ≤ h)
    obtain ⟨q1, q2⟩ := pow2_64 false 0 (by norm_num) (by norm_num)
    rw [sg_false, one_mul, zpow_zero] at q2
    have R2 := binary64.hsub_spec md d1 q1
    rw [d2, q2] at R2
    have m2 : Mult (-53) ((h : ℝ) / 2 ^ 53 - 1) := m1.sub ⟨2 ^ 53, by rw [e53]; norm_num⟩
    have b2 : |(h : ℝ) / 2 ^ 53 - 1| ≤ 1 / 2 := by
      rw [abs_le]
      have e1 : 1 / 2 ≤ (h : ℝ) / 2 ^ 53 := by rw [le_div_iff₀ (by positivity)]; linarith
      have e2 : (h : ℝ) / 2 ^ 53 ≤ 1 := by rw [div_le_one (by positivity)]; exact hlt'.le
      constructor <;> linarith
    obtain ⟨g1, g2⟩ := ex64 (-53) R2 m2 (by norm_num) (le_trans b2 (by norm_num)) (le_trans b2 (by norm_num))
    exact ⟨g1, g2, by rw [g2]; exact b2⟩

theorem ph_rlo_aux (l w c p r u η : ℝ) (hu : 0 < u) (hu2 : u ≤ 1 / 2 ^ 52) (hul : 1 / 2 ^ 53 ≤ u) (hη : 0 < η) (hη2 : η ≤ 1 / 2 ^ 200) (hl0 : 0 ≤ l) (hl : l + 1 ≤ 2 ^ 11) (hw0 : 0 ≤ w)
    (hw : w ≤ 2 ^ 64) (h1 : |c - w| ≤ u * |w| + η) (h2 : |p - c * (1 / 2 ^ 128)| ≤ u * |c * (1 / 2 ^ 128)| + η)
    (h3 : |r - (l / 2 ^ 64 + p)| ≤ u * |l / 2 ^ 64 + p| + η) :
    |l / 2 ^ 64 + w / 2 ^ 128| ≤ 1 / 2 ^ 53 ∧ |r - (l / 2 ^ 64 + w / 2 ^ 128)| ≤ (1 + 1 / 2 ^ 8) * (u / 2 ^ 53) := by
  have hL : |l / 2 ^ 64 + w / 2 ^ 128| ≤ 1 / 2 ^ 53 := by
    rw [abs_of_nonneg (by positivity)]
    have e1 : l / 2 ^ 64 + w / 2 ^ 128 = (l + w / 2 ^ 64) / 2 ^ 64 := by ring
    rw [e1, div_le_iff₀ (by positivity)]
    have : w / 2 ^ 64 ≤ 1 := by rw [div_le_one (by positivity)]; exact hw
    have e2 : (1 : ℝ) / 2 ^ 53 * 2 ^ 64 = 2 ^ 11 := by norm_num
    rw [e2]; linarith
  refine ⟨hL, ?_⟩
  have hw' : |w| ≤ 2 ^ 64 := by rw [abs_of_nonneg hw0]; exact hw
  have z : (1 : ℝ) / 2 ^ 200 ≤ 1 / 2 ^ 140 * u := by
    have : (1 : ℝ) / 2 ^ 200 ≤ 1 / 2 ^ 140 * (1 / 2 ^ 53) := by norm_num
    linarith
  have a1 : |c - w| ≤ (2 ^ 64 + 1) * u := by
    have := mul_le_mul_of_nonneg_left hw' hu.le
    linarith
  have a2 : |c| ≤ 2 ^ 64 + 2 ^ 14 := le_trans (abs_near a1 hw') (by linarith)
  have a3 : |c * (1 / 2 ^ 128)| ≤ (2 ^ 64 + 2 ^ 14) * (1 / 2 ^ 128) := abs_mul_le a2 (by rw [abs_of_nonneg (by positivity)])
  have a4 : |p - c * (1 / 2 ^ 128)| ≤ 1.01 / 2 ^ 64 * u := by
    have := mul_le_mul_of_nonneg_left a3 hu.le
    linarith
  have a5 : |c * (1 / 2 ^ 128) - w / 2 ^ 128| ≤ (2 ^ 64 + 1) * u * (1 / 2 ^ 128) := by
    have e : c * (1 / 2 ^ 128) - w / 2 ^ 128 = (c - w) * (1 / 2 ^ 128) := by ring
    rw [e]; exact abs_mul_le a1 (by rw [abs_of_nonneg (by positivity)])
  have a6 : |p - w / 2 ^ 128| ≤ 3 / 2 ^ 64 * u := le_trans (abs_tri a4 a5) (by linarith)
  have a7 : |l / 2 ^ 64 + p - (l / 2 ^ 64 + w / 2 ^ 128)| ≤ 3 / 2 ^ 64 * u := by rw [add_sub_add_left_eq_sub]; exact a6
  have a8 : |l / 2 ^ 64 + p| ≤ 1 / 2 ^ 53 + 1 / 2 ^ 100 := le_trans (abs_near a7 hL) (by linarith)
  have a9 := mul_le_mul_of_nonneg_left a8 hu.le
  exact le_trans (abs_tri h3 a7) (by linarith)

theorem ph_rlo (md : Mode) {w0 w1 : ℕ} (h1 : w1 < 2 ^ 64) (r : ℕ)
    (hr : r = binary64.hadd md (binary64.hmul md (binary64.ofInt md ((w0 &&& 0x7ff : ℕ) : ℤ)) (CC.pow2 binary64 false (-64)))
      (binary64.hmul md (binary64.ofInt md (w1 : ℤ)) (CC.pow2 binary64 false (-128)))) :
    binary64.Finite r ∧ |((w0 % 2 ^ 11 : ℕ) : ℝ) / 2 ^ 64 + (w1 : ℝ) / 2 ^ 128| ≤ 1 / 2 ^ 53 ∧
      |binary64.val r - (((w0 % 2 ^ 11 : ℕ) : ℝ) / 2 ^ 64 + (w1 : ℝ) / 2 ^ 128)| ≤ (1 + 1 / 2 ^ 8) * (ru md / 2 ^ 53) := by
  rw [show (0x7ff : ℕ) = 2 ^ 11 - 1 from rfl, Nat.and_two_pow_sub_one_eq_mod] at hr
  set l := w0 % 2 ^ 11 with hh
  have hlt : l + 1 ≤ 2 ^ 11 := by omega
  have hlt' : (l : ℝ) + 1 ≤ 2 ^ 11 := by exact_mod_cast hlt
  have hnn : (0 : ℝ) ≤ l := Nat.cast_nonneg l
  have hwn : (0 : ℝ) ≤ w1 := Nat.cast_nonneg w1
  have hw : (w1 : ℝ) ≤ 2 ^ 64 := by exact_mod_cast h1.le
  have hu := ru_pos md
  have hu2 := ru_le md
  have hη := eta_pos
  have hη2 := eta_le
  obtain ⟨c1, c2⟩ := ofInt_ex64 md (z := (l : ℤ)) (by rw [abs_of_nonneg (by omega)]; omega)
  obtain ⟨p1, p2⟩ := pow2_64 false (-64) (by norm_num) (by norm_num)
  rw [sg_false, one_mul] at p2
  have e64 : (2 : ℝ) ^ (-64 : ℤ) = 1 / 2 ^ 64 := by rw [zpow_neg, one_div]; norm_cast
  have v1 : binary64.val (binary64.ofInt md (l : ℤ)) * binary64.val (CC.pow2 binary64 false (-64)) = (l : ℝ) / 2 ^ 64 := by
    rw [c2, p2, e64]; push_cast; ring
  have R1 := binary64.hmul_spec md c1 p1
  rw [v1] at R1
  have b1 : |(l : ℝ) / 2 ^ 64| ≤ 1 / 2 ^ 53 := by
    rw [abs_of_nonneg (by positivity), div_le_iff₀ (by positivity)]
    have : (1 : ℝ) / 2 ^ 53 * 2 ^ 64 = 2 ^ 11 := by norm_num
    rw [this]; linarith
  obtain ⟨d1, d2⟩ := ex64 (-64) R1 ⟨l, by rw [e64]; push_cast; ring⟩ (by norm_num) (le_trans b1 (by norm_num)) (le_trans b1 (by norm_num))
  have hw' : |((w1 : ℤ) : ℝ)| ≤ 2 ^ 64 := by push_cast; rw [abs_of_nonneg hwn]; exact hw
  obtain ⟨f1, f2⟩ := err64 (ofInt_spec binary64 md (w1 : ℤ)) (le_trans hw' (by norm_num))
  obtain ⟨q1, q2⟩ := pow2_64 false (-128) (by norm_num) (by norm_num)
  rw [sg_false, one_mul] at q2
  have e128 : (2 : ℝ) ^ (-128 : ℤ) = 1 / 2 ^ 128 := by rw [zpow_neg, one_div]; norm_cast
  rw [e128] at q2
  have k1 : |binary64.val (binary64.ofInt md (w1 : ℤ))| ≤ 2 ^ 66 := by
    refine le_trans (abs_near f2 hw') ?_
    have := mul_le_mul hu2 hw' (abs_nonneg _) (by positivity)
    have e : (2 : ℝ) ^ 64 + (1 / 2 ^ 52 * 2 ^ 64 + 1 / 2 ^ 200) ≤ 2 ^ 66 := by norm_num
    linarith
  have k2 : |binary64.val (binary64.ofInt md (w1 : ℤ)) * binary64.val (CC.pow2 binary64 false (-128))| ≤ 2 ^ 66 * (1 / 2 ^ 128) := by
    rw [q2]; exact abs_mul_le k1 (by rw [abs_of_nonneg (by positivity)])
  obtain ⟨g1, g2⟩ := mul64_err md f1 q1 (le_trans k2 (by norm_num))
  have k3 : |binary64.val (binary64.hmul md (binary64.ofInt md (w1 : ℤ)) (CC.pow2 binary64 false (-128)))| ≤ 1 := by
    refine le_trans (abs_near g2 k2) ?_
    have := mul_le_mul hu2 k2 (abs_nonneg _) (by positivity)
    have e : (2 : ℝ) ^ 66 * (1 / 2 ^ 128) + (1 / 2 ^ 52 * (2 ^ 66 * (1 / 2 ^ 128)) + 1 / 2 ^ 200) ≤ 1 := by norm_num
    linarith
  obtain ⟨j1, j2⟩ := add64_err md d1 g1 (le_trans (abs_add_le' (d2.symm ▸ b1) k3) (by norm_num))
  rw [← hr] at j1 j2
  rw [d2] at j2
  rw [q2] at g2
  refine ⟨j1, ph_rlo_aux l w1 _ _ _ _ _ hu hu2 (ru_ge md) hη hη2 hnn hlt' hwn hw ?_ g2 j2⟩
  have : ((w1 : ℤ) : ℝ) = (w1 : ℝ) := by push_cast; rfl
  rw [this] at f2; exact f2

/-- `π/8` against its two-part approximation -/
theorem pi8_const : |binary64.val CC.piOver8Hi| ≤ 0.3928 ∧ |binary64.val CC.piOver8Lo| ≤ 1 / 2 ^ 55 ∧ (|Real.pi / 8| ≤ 0.3928 ∧ 0.39 ≤ |Real.pi / 8|) ∧
    |binary64.val CC.piOver8Hi - Real.pi / 8| ≤ 1.11 / 2 ^ 56 ∧ |binary64.val CC.piOver8Hi + binary64.val CC.piOver8Lo - Real.pi / 8| ≤ 1 / 2 ^ 110 := by
  rw [val_piHi, val_piLo]
  obtain ⟨a, b⟩ := pi_250
  refine ⟨by rw [abs_le]; constructor <;> norm_num, by rw [abs_le]; constructor <;> norm_num, ⟨?_, ?_⟩, ?_, ?_⟩
  · rw [abs_le]; constructor <;> linarith
  · refine le_trans ?_ (le_abs_self _); linarith
  · rw [abs_le]; constructor <;> linarith
  · rw [abs_le]; constructor <;> linarith

theorem ph_K (k : ℕ) (up : Bool) (hk : k < 16) (neg : Bool) (n : ℕ) :
    (if neg then -(16 * (n : ℤ) + k + (if up then 1 else 0)) else 16 * (n : ℤ) + k + (if up then 1 else 0)) % 16 =
      (((if neg then (2 ^ 32 - (if up then (k + 1) &&& 15 else k)) % 2 ^ 32 else (if up then (k + 1) &&& 15 else k)) &&& 15 : ℕ) : ℤ) := by
  have e : ∀ a : ℕ, a &&& 15 = a % 16 := fun a => Nat.and_two_pow_sub_one_eq_mod a 4
  simp only [e]
  cases up <;> cases neg <;> simp <;> omega

/-- The reduction: `x = K π/8 + Y` with `K ≡ k (mod 16)`, `|Y| ≤ π/16` up to `2^-200`, and `y` is `Y` up to two roundings and `1.75 u 2^-53`. -/
theorem payneHanek_spec (fused : Bool) (md : Mode) {x : ℕ} (hx : binary64.Finite x) (hb : 822 ≤ binary64.bexp x) :
    binary64.Finite (CC.payneHanek fused md x).2 ∧ ∃ K : ℤ, K % 16 = (CC.payneHanek fused md x).1 ∧
      |binary64.val x - K * (Real.pi / 8)| ≤ (1 / 2 + 1 / 2 ^ 200) * (Real.pi / 8) ∧
      |binary64.val (CC.payneHanek fused md x).2 - (binary64.val x - K * (Real.pi / 8))| ≤
        (2 + 1 / 2 ^ 40) * ru md * |binary64.val x - K * (Real.pi / 8)| + 1.75 * (ru md / 2 ^ 53) := by
  obtain ⟨⟨hlen, hw⟩, n, s1, s2⟩ := phAcc_spec hx hb
  unfold CC.payneHanek
  dsimp only
  generalize CC.phAcc x = acc at *
  obtain ⟨a0, a1, a2, a3, rfl⟩ : ∃ a0 a1 a2 a3, acc = [a0, a1, a2, a3] := by
    match acc, hlen with
    | [a0, a1, a2, a3], _ => exact ⟨a0, a1, a2, a3, rfl⟩
  obtain ⟨k, w0, w1, rest, e1, e2, e3, e4, hk, hw0, hw1, hrest, hacc⟩ :=
    ph_words (hw a0 (by simp)) (hw a1 (by simp)) (hw a2 (by simp)) (hw a3 (by simp))
  simp only [List.getD_cons_zero, List.getD_cons_succ]
  rw [e1, e2, e3, e4]
  obtain ⟨up, hupd⟩ : ∃ up, up = decide (2 ^ 63 ≤ w0) := ⟨_, rfl⟩
  rw [← hupd]
  rw [hacc] at s1 s2
  rw [FPBits.isNeg_eq binary64 hx.valid]
  generalize hrHi : (if up = true then binary64.hsub md (binary64.hmul md (binary64.ofInt md ((w0 >>> 11 : ℕ) : ℤ)) (CC.pow2 binary64 false (-53))) (CC.pow2 binary64 false 0)
      else binary64.hmul md (binary64.ofInt md ((w0 >>> 11 : ℕ) : ℤ)) (CC.pow2 binary64 false (-53))) = rHi
  generalize hrLo : binary64.hadd md (binary64.hmul md (binary64.ofInt md ((w0 &&& 0x7ff : ℕ) : ℤ)) (CC.pow2 binary64 false (-64)))
      (binary64.hmul md (binary64.ofInt md (w1 : ℤ)) (CC.pow2 binary64 false (-128))) = rLo
  obtain ⟨r1, r2, r3⟩ := ph_rhi md hw0 up hupd rHi hrHi.symm
  obtain ⟨l1, l2, l3⟩ := ph_rlo md (w0 := w0) hw1 rLo hrLo.symm
  clear hrHi hrLo e1 e2 e3 e4
  have hu := ru_pos md
  have hu2 := ru_le md
  have hη := eta_pos
  have hη2 := eta_le
  obtain ⟨q1, q2, ⟨q3, q3'⟩, q4, q5⟩ := pi8_const
  have fHi : binary64.Finite CC.piOver8Hi := by decide +kernel
  have fLo : binary64.Finite CC.piOver8Lo := by decide +kernel
  set L := ((w0 % 2 ^ 11 : ℕ) : ℝ) / 2 ^ 64 + (w1 : ℝ) / 2 ^ 128 with hL
  have l4 : |binary64.val rLo| ≤ 1 / 2 ^ 53 + 1 / 2 ^ 103 := le_trans (abs_near l3 l2) (by linarith)
  have l5 := abs_mul_le l4 q1
  obtain ⟨t1f, t1e⟩ := mul64_err md l1 fHi (le_trans l5 (by norm_num))
  have t1b := abs_near t1e l5
  have hmulb : ru md * |binary64.val rLo * binary64.val CC.piOver8Hi| ≤ 1 / 2 ^ 52 * ((1 / 2 ^ 53 + 1 / 2 ^ 103) * 0.3928) := mul_le_mul hu2 l5 (abs_nonneg _) (by positivity)
  have t1c : |binary64.val (binary64.hmul md rLo CC.piOver8Hi)| ≤ 1 := by
    have e : (1 / 2 ^ 53 + 1 / 2 ^ 103) * 0.3928 + ((1 : ℝ) / 2 ^ 52 * ((1 / 2 ^ 53 + 1 / 2 ^ 103) * 0.3928) + 1 / 2 ^ 200) ≤ 1 := by norm_num
    linarith
  have b2 := abs_mul_le r3 q2
  obtain ⟨t2f, t2e⟩ := ma64_err fused md r1 fLo t1f (le_trans b2 (by norm_num)) (le_trans t1c (by norm_num))
  have t2c : |binary64.val (CC.multiplyAdd binary64 fused md rHi CC.piOver8Lo (binary64.hmul md rLo CC.piOver8Hi))| ≤ 4 := by
    have c1 := abs_add_le' b2 t1c
    have c2 := abs_near t2e c1
    have c3 : ru md * |binary64.val rHi * binary64.val CC.piOver8Lo + binary64.val (binary64.hmul md rLo CC.piOver8Hi)| ≤ 1 / 2 ^ 52 * (1 / 2 * (1 / 2 ^ 55) + 1) :=
      mul_le_mul hu2 c1 (abs_nonneg _) (by positivity)
    have c4 : (1 + 1 / 2 ^ 50) * ru md * |binary64.val rHi * binary64.val CC.piOver8Lo| ≤ (1 + 1 / 2 ^ 50) * (1 / 2 ^ 52) * (1 / 2 * (1 / 2 ^ 55)) :=
      mul_le_mul (mul_le_mul_of_nonneg_left hu2 (by positivity)) b2 (abs_nonneg _) (by positivity)
    have e : 1 / 2 * (1 / 2 ^ 55) + 1 + ((1 : ℝ) / 2 ^ 52 * (1 / 2 * (1 / 2 ^ 55) + 1) + (1 + 1 / 2 ^ 50) * (1 / 2 ^ 52) * (1 / 2 * (1 / 2 ^ 55)) + 3 * (1 / 2 ^ 200)) ≤ 4 := by norm_num
    linarith
  obtain ⟨yf, ye⟩ := ma64_err fused md r1 fHi t2f (le_trans (abs_mul_le r3 q1) (by norm_num)) (le_trans t2c (by norm_num))
  generalize CC.multiplyAdd binary64 fused md rHi CC.piOver8Hi (CC.multiplyAdd binary64 fused md rHi CC.piOver8Lo (binary64.hmul md rLo CC.piOver8Hi)) = y at *
  obtain ⟨R, hR⟩ : ∃ R, R = |binary64.val x| * (8 / Real.pi) - (16 * (n : ℝ) + k + (if up then 1 else 0)) := ⟨_, rfl⟩
  have hpi := Real.pi_pos
  have hval : |binary64.val x| = (16 * (n : ℝ) + k + (if up then 1 else 0)) * (Real.pi / 8) + R * (Real.pi / 8) := by
    rw [hR]; field_simp; ring
  obtain ⟨R1, R2⟩ : |binary64.val rHi + L - R| ≤ 1 / 2 ^ 127 ∧ |R| ≤ 1 / 2 + 1 / 2 ^ 200 := by
    set V := |binary64.val x| * (8 / Real.pi) with hV
    have w0e : (w0 : ℝ) = 2 ^ 11 * ((w0 / 2 ^ 11 : ℕ) : ℝ) + ((w0 % 2 ^ 11 : ℕ) : ℝ) := by
      exact_mod_cast (Nat.div_add_mod w0 (2 ^ 11)).symm
    rw [r2, hL]
    push_cast at s1 s2
    have hrest' : (rest : ℝ) < 2 ^ 124 := by exact_mod_cast hrest
    have hrest0 : (0 : ℝ) ≤ rest := Nat.cast_nonneg _
    have hw1' : (w1 : ℝ) ≤ 2 ^ 64 - 1 := by
      have : (w1 : ℝ) + 1 ≤ 2 ^ 64 := by exact_mod_cast hw1
      linarith
    have hw10 : (0 : ℝ) ≤ w1 := Nat.cast_nonneg _
    have hw0' : (w0 : ℝ) ≤ 2 ^ 64 - 1 := by
      have : (w0 : ℝ) + 1 ≤ 2 ^ 64 := by exact_mod_cast hw0
      linarith
    have hw00 : (0 : ℝ) ≤ w0 := Nat.cast_nonneg _
    generalize ((w0 / 2 ^ 11 : ℕ) : ℝ) = h at *
    generalize ((w0 % 2 ^ 11 : ℕ) : ℝ) = l at *
    cases up
    · have hlt : w0 < 2 ^ 63 := by simpa using hupd.symm
      have hlt' : (w0 : ℝ) ≤ 2 ^ 63 - 1 := by
        have : (w0 : ℝ) + 1 ≤ 2 ^ 63 := by exact_mod_cast hlt
        linarith
      simp only [Bool.false_eq_true, if_false] at *
      constructor
      · rw [abs_le, hR]; constructor <;> linarith
      · rw [abs_le, hR]; constructor <;> linarith
    · have hlt : 2 ^ 63 ≤ w0 := by simpa using hupd.symm
      have hlt' : (2 : ℝ) ^ 63 ≤ w0 := by exact_mod_cast hlt
      simp only [if_true] at *
      constructor
      · rw [abs_le, hR]; constructor <;> linarith
      · rw [abs_le, hR]; constructor <;> linarith
  have hy := ph_y _ L _ _ _ _ R (Real.pi / 8) _ _ _ _ hu hu2 (ru_ge md) hη hη2 l2 l3 R1 q1 q2 q3 q3' q4 q5 t1e t2e ye
  have hRP : |R * (Real.pi / 8)| ≤ (1 / 2 + 1 / 2 ^ 200) * (Real.pi / 8) := abs_mul_le R2 (by rw [abs_of_pos (by positivity)])
  have hK := ph_K k up hk (binary64.sgn x) n
  obtain ⟨K0, hK0⟩ : ∃ K0 : ℤ, K0 = 16 * (n : ℤ) + k + (if up then 1 else 0) := ⟨_, rfl⟩
  have hK0r : (K0 : ℝ) = 16 * (n : ℝ) + k + (if up then 1 else 0) := by
    rw [hK0]; push_cast; cases up <;> simp
  rw [← hK0] at hK
  rw [← hK0r] at hval
  have hvs := CC.val_eq_sg_abs binary64 x
  rw [hval] at hvs
  cases hs : binary64.sgn x
  · rw [hs] at hK hvs
    rw [sg_false, one_mul] at hvs
    simp only [Bool.false_eq_true, if_false] at hK ⊢
    refine ⟨yf, K0, hK, ?_⟩
    have e : binary64.val x - K0 * (Real.pi / 8) = R * (Real.pi / 8) := by rw [hvs]; ring
    rw [e]
    exact ⟨hRP, hy⟩
  · rw [hs] at hK hvs
    rw [sg_true, neg_one_mul] at hvs
    simp only [if_true] at hK ⊢
    refine ⟨binary64.finite_hneg yf, -K0, hK, ?_⟩
    have e : binary64.val x - ((-K0 : ℤ) : ℝ) * (Real.pi / 8) = -(R * (Real.pi / 8)) := by rw [hvs]; push_cast; ring
    rw [e, abs_neg, binary64.val_hneg, neg_sub_neg, abs_sub_comm]
    exact ⟨hRP, hy⟩

end Verif
