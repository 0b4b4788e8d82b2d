import Verif.Lemmas.Ipow6
import Verif.Props.Rsqrt
import Verif.Props.PowInt

/-!
# C87: half-integer powers

`pow(x, n/2)` for odd `n` with `|n| ≤ 2047`, whatever the logarithm/exponential kernel does.
-/

namespace Verif
open Fmt Real

variable (kernel : ℕ → ℕ → Bool → Option (ℕ × CC.PowEff)) (m : Mode)

/-- the range of the result bounds the base -/
theorem half_range {x y : ℝ} (x0 : 0 < x) (hy : 3 / 2 ≤ |y|) (h1 : (2 : ℝ) ^ (-1021 : ℤ) ≤ x ^ y) (h2 : x ^ y ≤ 2 ^ (1024 : ℤ)) :
    (2 : ℝ) ^ (-690 : ℤ) ≤ x ∧ x ≤ 2 ^ (690 : ℤ) := by
  have l2 : 0 < Real.log 2 := Real.log_pos (by norm_num)
  have a1 := Real.log_le_log (two_zpow_pos _) h1
  have a2 := Real.log_le_log (Real.rpow_pos_of_pos x0 y) h2
  rw [Real.log_rpow x0, Real.log_zpow] at a1 a2
  have b : |y| * |Real.log x| ≤ 1024 * Real.log 2 := by
    rw [← abs_mul, abs_le]; push_cast at a1 a2
    constructor <;> linarith
  have c : |Real.log x| ≤ 690 * Real.log 2 := by
    have := mul_le_mul_of_nonneg_right hy (abs_nonneg (Real.log x))
    linarith
  obtain ⟨c1, c2⟩ := abs_le.1 c
  constructor
  · rw [← Real.log_le_log_iff (two_zpow_pos _) x0, Real.log_zpow]; push_cast; linarith
  · rw [← Real.log_le_log_iff x0 (two_zpow_pos _), Real.log_zpow]; push_cast; linarith

/-- the half-integer path -/
theorem powHalfPath_err {x y : ℕ} {n : ℤ} (hx : binary64.Finite x) (h1 : (2 : ℝ) ^ (-690 : ℤ) ≤ binary64.val x) (h2 : binary64.val x ≤ 2 ^ (690 : ℤ))
    (hy : binary64.Finite y) (hyn : binary64.val y = n / 2) (ho : Odd n) (hn0 : 3 ≤ |n|) (hn1 : |n| ≤ 2047)
    (X1 : (2 : ℝ) ^ (-1021 : ℤ) ≤ √(binary64.val x) ^ n) (X2 : √(binary64.val x) ^ n ≤ (1 - 1 / 2 ^ 50) * 2 ^ (1024 : ℤ)) :
    ∃ r w, CC.powIntPath m x y false {} = some none ∧ CC.powHalfPath m x y {} = some (some (r, {})) ∧ binary64.Finite r ∧
      |w - √(binary64.val x) ^ n| ≤ √(binary64.val x) ^ n / 2 ^ 83 ∧ binary64.RoundsTo m false w r := by
  have x0 : 0 < binary64.val x := lt_of_lt_of_le (two_zpow_pos _) h1
  have S0 : 0 < √(binary64.val x) := Real.sqrt_pos.2 x0
  obtain ⟨p, hp, hl⟩ := SPow.loadSqrt m hx h1 h2
  clear h1 h2
  have n0 : n ≠ 0 := by intro h; rw [h] at hn0; norm_num at hn0
  have nr0 : (n : ℝ) ≠ 0 := by exact_mod_cast n0
  have nab : |(n : ℝ)| ≤ 2047 := by exact_mod_cast hn1
  have nab3 : 3 ≤ |(n : ℝ)| := by exact_mod_cast hn0
  have hy0 : binary64.val y ≠ 0 := by rw [hyn]; exact div_ne_zero nr0 (by norm_num)
  -- exponent tests
  have i1 : CC.isInteger y = false := by
    rw [← Bool.not_eq_true, C26_is_integer_partial hy hy0]
    rintro ⟨k, hk⟩
    rw [hyn] at hk
    have : (n : ℝ) = (2 * k : ℤ) := by push_cast; linarith
    have : n = 2 * k := by exact_mod_cast this
    rw [this] at ho
    exact absurd ho (by simp)
  have ft : binary64.Finite (binary64.hmul m y CC.two64) ∧ binary64.val (binary64.hmul m y CC.two64) = n := by
    have R := binary64.hmul_spec m hy two64_val.1
    rw [two64_val.2] at R
    obtain ⟨c, fc, vc, -⟩ := binary64.scale_exact (x := y) (k := 1) (Or.inl (by norm_num)) (by
      rw [zpow_one, hyn, div_mul_cancel₀ _ (by norm_num)]
      refine lt_of_le_of_lt nab ?_
      refine lt_of_lt_of_le (show (2047 : ℝ) < 2 ^ (11 : ℤ) by norm_num) (two_zpow_le (by decide)))
    rw [zpow_one] at vc
    obtain ⟨g1, g2⟩ := RoundsTo.exact binary64 fc vc R
    exact ⟨g1, by rw [g2, hyn]; ring⟩
  have i2 : CC.isInteger (binary64.hmul m y CC.two64) = true := (C26_is_integer_partial ft.1 (by rw [ft.2]; exact nr0)).2 ⟨n, ft.2⟩
  have c2048 : binary64.Finite 0x40A0000000000000 ∧ binary64.val 0x40A0000000000000 = 2048 :=
    ⟨by rw [finite_iff]; decide +kernel, by rw [one64_val.val_of_ival' (a := 2048) (by decide +kernel)]; norm_num⟩
  have fm : binary64.Finite (FPBits.abs binary64 (binary64.hmul m y CC.two64)) := by
    rw [FPBits.abs_eq]
    exact (binary64.finite_iff _).2 ⟨CC.valid_mag _ _, by rw [CC.mag_mag]; exact ((binary64.finite_iff _).1 ft.1).2⟩
  have i3 : binary64.hle (FPBits.abs binary64 (binary64.hmul m y CC.two64)) 0x40A0000000000000 = true := by
    rw [CC.hle_finite binary64 fm c2048.1, FPBits.abs_eq, CC.val_mag, c2048.2, ft.2]; linarith
  have i4 : binary64.heq y CC.half64 = false := by
    rw [← Bool.not_eq_true, CC.heq_finite binary64 hy half64_val.1, half64_val.2, hyn]
    intro h
    have : (n : ℝ) = 1 := by linarith
    rw [this] at nab3; norm_num at nab3
  have i5 : binary64.heq y 0xBFE0000000000000 = false := by
    rw [← Bool.not_eq_true, CC.heq_finite binary64 hy half_bits.1, half_bits.2, hyn]
    intro h
    have : (n : ℝ) = -1 := by linarith
    rw [this] at nab3; norm_num at nab3
  have hab : n.natAbs ≤ 2047 := by rw [Int.abs_eq_natAbs] at hn1; omega
  obtain ⟨sp, k1, k2⟩ := ipow_spec m (n := n.natAbs) hl S0 (by omega)
  obtain ⟨p1, p2⟩ := path_end m k2 (pow_pos S0 _) (by omega) false
  have hint : CC.powIntPath m x y false {} = some none := by
    unfold CC.powIntPath
    simp only [i1, Bool.false_and, Bool.false_eq_true, if_false]
  unfold CC.powHalfPath
  simp only [i1, i2, i3, i4, i5, Bool.not_false, Bool.and_true, if_true, Bool.false_eq_true, if_false, truncInt_int ft.2, hp, k1, Option.bind_eq_bind, Option.bind_some, Option.pure_def,
    sg_false, one_mul] at p1 p2 ⊢
  rcases lt_or_ge n 0 with hneg | hpos
  · have hz : √(binary64.val x) ^ n = (√(binary64.val x) ^ n.natAbs)⁻¹ := by
      rw [← zpow_natCast, ← zpow_neg]; congr 1; omega
    rw [hz] at X1 X2 ⊢
    obtain ⟨q, w, g1, g2, g3, g6, g4, g5⟩ := p2 X1 X2
    obtain ⟨n1, n2, n3, -⟩ := normal_flags g2 g5
    refine ⟨_, w, hint, ?_, g2, g3, g4⟩
    simp only [if_pos hneg, g1, Option.bind_some, n1, n2, n3, Bool.not_false, Bool.and_true, if_true]
  · have hz : √(binary64.val x) ^ n = √(binary64.val x) ^ n.natAbs := by
      rw [← zpow_natCast]; congr 1; omega
    rw [hz] at X1 X2 ⊢
    obtain ⟨w, g2, g3, g6, g4, g5⟩ := p1 X1 X2
    obtain ⟨n1, n2, n3, -⟩ := normal_flags g2 g5
    refine ⟨_, w, hint, ?_, g2, g3, g4⟩
    simp only [if_neg (not_lt.2 hpos), n1, n2, n3, Bool.not_false, Bool.and_true, if_true, Bool.false_eq_true, if_false]

/-- C87: for a positive finite `x` and an odd integer `n` with `3 ≤ |n| ≤ 2047`, if `2^-1021 ≤ x^(n/2) ≤ (1 - 2^-50)·2^1024` then `pow(x, n/2)` is the correctly
rounded value, in the current mode, of a number that differs from `x^(n/2)` by less than one part in `2^83`, and `errno` and the explicit flags stay
untouched.  (For `n = ±1` the result is correctly rounded, C52.) -/
theorem C87_pow_half_integer {x y : ℕ} {n : ℤ} (hx : binary64.Finite x) (hx0 : 0 < binary64.val x) (hy : binary64.Finite y) (hyn : binary64.val y = n / 2) (ho : Odd n)
    (hn0 : 3 ≤ |n|) (hn1 : |n| ≤ 2047) (h1 : (2 : ℝ) ^ (-1021 : ℤ) ≤ binary64.val x ^ binary64.val y)
    (h2 : binary64.val x ^ binary64.val y ≤ (1 - 1 / 2 ^ 50) * 2 ^ (1024 : ℤ)) :
    ∃ r w, CC.powImpl kernel m x y = some (r, {}) ∧ binary64.Finite r ∧ |w - binary64.val x ^ binary64.val y| ≤ binary64.val x ^ binary64.val y / 2 ^ 83 ∧
      binary64.RoundsTo m false w r := by
  have nr0 : 3 ≤ |(n : ℝ)| := by exact_mod_cast hn0
  have hy0 : binary64.val y ≠ 0 := by
    rw [hyn]; intro h
    have : (n : ℝ) = 0 := by linarith
    rw [this] at nr0; norm_num at nr0
  by_cases hone : x = CC.one64
  · have o := one64_val
    refine ⟨CC.one64, 1, ?_, o.1, ?_, ?_⟩
    · have hym : binary64.mag y ≠ 0 := fun h => hy0 ((binary64.val_eq_zero_iff y).2 h)
      have ny : ¬ binary64.IsNaN y := by rw [isNaN_iff]; have := ((binary64.finite_iff y).1 hy).2; omega
      have nx : ¬ binary64.IsNaN x := by rw [isNaN_iff]; have := ((binary64.finite_iff x).1 hx).2; omega
      obtain ⟨-, e1, e2, e3, e4⟩ := powImpl_ord hx.1 hy.1 nx ny hym
      unfold CC.powImpl
      simp only [e1, e3, if_pos hone, Bool.false_eq_true, if_false]
    · rw [hone, o.2, Real.one_rpow]; norm_num
    · obtain ⟨b, R⟩ := binary64.exists_roundsTo m false 1
      have := RoundsTo.exact_eq binary64 o.1 (by rw [o.2]; exact R) (fun h => by rw [o.2] at h; norm_num at h)
      rw [this] at R; exact R
  have hpw : binary64.val x ^ binary64.val y = √(binary64.val x) ^ n := by
    rw [Real.sqrt_eq_rpow, ← Real.rpow_intCast, ← Real.rpow_mul hx0.le, hyn]; congr 1; ring
  have hle : binary64.val x ^ binary64.val y ≤ 2 ^ (1024 : ℤ) := by
    refine h2.trans ?_
    have := two_zpow_pos 1024
    generalize (2 : ℝ) ^ (1024 : ℤ) = z at *
    norm_num; linarith
  obtain ⟨b1, b2⟩ := half_range hx0 (by rw [hyn, abs_div, abs_of_pos (show (0 : ℝ) < 2 by norm_num)]; linarith) h1 hle
  rw [hpw] at h1 h2 ⊢
  obtain ⟨r, w, g1, g2, g3, g4, g5⟩ := powHalfPath_err m hx b1 b2 hy hyn ho hn0 hn1 h1 h2
  refine ⟨r, w, ?_, g3, g4, g5⟩
  rw [powImpl_pos kernel m hx hx0 hone hy hy0, g1]
  simp only [g2]

/-- C87: the relative error is at most one rounding plus `2^-82`. -/
theorem C87_pow_half_integer_error {x y : ℕ} {n : ℤ} (hx : binary64.Finite x) (hx0 : 0 < binary64.val x) (hy : binary64.Finite y) (hyn : binary64.val y = n / 2) (ho : Odd n)
    (hn0 : 3 ≤ |n|) (hn1 : |n| ≤ 2047) (h1 : (2 : ℝ) ^ (-1021 : ℤ) ≤ binary64.val x ^ binary64.val y)
    (h2 : binary64.val x ^ binary64.val y ≤ (1 - 1 / 2 ^ 50) * 2 ^ (1024 : ℤ)) :
    ∃ r, CC.powImpl kernel m x y = some (r, {}) ∧ binary64.Finite r ∧
      |binary64.val r - binary64.val x ^ binary64.val y| ≤ ((if m = .nearest then 1 / 2 ^ 53 else 1 / 2 ^ 52) + 1 / 2 ^ 82) * binary64.val x ^ binary64.val y := by
  obtain ⟨r, w, g1, g2, g3, g4⟩ := C87_pow_half_integer kernel m hx hx0 hy hyn ho hn0 hn1 h1 h2
  have hp := Real.rpow_pos_of_pos hx0 (binary64.val y)
  refine ⟨r, g1, g2, ?_⟩
  have e := abs_of_pos hp
  have := finish_err (X := binary64.val x ^ binary64.val y) g4 (by rw [e]; exact g3) (by rw [e]; exact h1) (by rw [e]; exact h2)
  rw [e] at this; exact this

/-- non-vacuity: `2^(3/2)` -/
example : ∃ r w, CC.powImpl kernel m 0x4000000000000000 0x3FF8000000000000 = some (r, {}) ∧ binary64.Finite r ∧ |w - 2 ^ (3 / 2 : ℝ)| ≤ 2 ^ (3 / 2 : ℝ) / 2 ^ 83 ∧
    binary64.RoundsTo m false w r := by
  have f2 := powInt_consts.2.2.1
  have f3 : binary64.Finite 0x3FF8000000000000 := by rw [finite_iff]; decide +kernel
  have v3 : binary64.val 0x3FF8000000000000 = ((3 : ℤ) : ℝ) / 2 := by
    have h : binary64.val 0x3FF8000000000000 * 2 = binary64.val 0x4008000000000000 := by
      rw [val_eq_ival, val_eq_ival, show binary64.ival 0x4008000000000000 = binary64.ival 0x3FF8000000000000 * 2 by decide +kernel]; push_cast; ring
    have h3 : binary64.val 0x4008000000000000 = ((3 : ℤ) : ℝ) := one64_val.val_of_ival' (by decide +kernel)
    rw [h3] at h
    rw [← h]; ring
  have e1 : (1 : ℝ) ≤ 2 ^ (3 / 2 : ℝ) := Real.one_le_rpow (by norm_num) (by norm_num)
  have e2 : (2 : ℝ) ^ (3 / 2 : ℝ) ≤ 2 ^ (2 : ℝ) := Real.rpow_le_rpow_of_exponent_le (by norm_num) (by norm_num)
  rw [Real.rpow_two] at e2
  have ea : |(2 : ℝ) ^ (3 / 2 : ℝ)| = 2 ^ (3 / 2 : ℝ) := abs_of_pos (by linarith)
  have hr := powInt_range (v := (2 : ℝ) ^ (3 / 2 : ℝ)) (by rw [ea]; exact le_trans (by norm_num) e1) (by rw [ea]; exact e2.trans (by norm_num))
  rw [ea] at hr
  have key := C87_pow_half_integer kernel m (n := 3) f2.1 (by rw [f2.2]; norm_num) f3 v3 (by decide) (by norm_num) (by norm_num)
  rw [f2.2, v3] at key
  exact key hr.1 hr.2

end Verif
