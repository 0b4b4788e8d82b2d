import Verif.Lemmas.PowK11
import Verif.Props.PowInt
import Verif.Props.PowHalf

/-!
# C88: accuracy of pow on the whole range of normal results
-/

namespace Verif
open Fmt Real

/-- `2y` is not an integer of magnitude at most 2048: neither special path applies -/
theorem powHalf_none (m : Mode) {x y : ℕ} (hy : binary64.Finite y) (hy0 : binary64.val y ≠ 0)
    (h : (∃ k : ℤ, binary64.val y = k) ∨ ∀ n : ℤ, |n| ≤ 2048 → binary64.val y ≠ n / 2) : CC.powHalfPath m x y {} = some none := by
  unfold CC.powHalfPath
  by_cases hi : CC.isInteger y = true
  · simp only [hi, Bool.not_true, Bool.and_false, Bool.false_and, Bool.false_eq_true, if_false]
  have hi' : CC.isInteger y = false := by simpa using hi
  have hni : ¬ ∃ k : ℤ, binary64.val y = k := by rw [← C26_is_integer_partial hy hy0]; exact hi
  replace h := h.resolve_left hni
  have key : (CC.isInteger (binary64.hmul m y CC.two64) && !CC.isInteger y && binary64.hle (FPBits.abs binary64 (binary64.hmul m y CC.two64)) 0x40A0000000000000) = false := by
    rw [hi', Bool.not_false, Bool.and_true, ← Bool.not_eq_true, Bool.and_eq_true]
    rintro ⟨a1, a2⟩
    have hsm : |binary64.val y| < 2 ^ (53 : ℤ) := by
      by_contra hc
      apply hni
      obtain ⟨k, hk⟩ := mult_of_ge (x := y) (k := 53) (not_lt.1 hc)
      exact ⟨k * 2, by rw [hk]; push_cast; norm_num⟩
    have R := binary64.hmul_spec m hy two64_val.1
    rw [two64_val.2] at R
    obtain ⟨c, fc, vc, -⟩ := binary64.scale_exact (x := y) (k := 1) (Or.inl (by norm_num)) (by
      rw [zpow_one, abs_mul, abs_of_pos (by norm_num : (0 : ℝ) < 2)]
      refine lt_of_lt_of_le (b := (2 : ℝ) ^ (54 : ℤ)) ?_ (two_zpow_le (by decide))
      norm_num at hsm ⊢; linarith)
    rw [zpow_one] at vc
    obtain ⟨g1, g2⟩ := RoundsTo.exact binary64 fc vc R
    have c2048 : binary64.Finite 0x40A0000000000000 ∧ binary64.val 0x40A0000000000000 = 2048 :=
      ⟨by rw [finite_iff]; decide +kernel, by rw [one64_val.val_of_ival' (a := 2048) (by decide +kernel)]; norm_num⟩
    have fm : binary64.Finite (FPBits.abs binary64 (binary64.hmul m y CC.two64)) := by
      rw [FPBits.abs_eq]
      exact (binary64.finite_iff _).2 ⟨CC.valid_mag _ _, by rw [CC.mag_mag]; exact ((binary64.finite_iff _).1 g1).2⟩
    rw [CC.hle_finite binary64 fm c2048.1, FPBits.abs_eq, CC.val_mag, c2048.2, g2] at a2
    obtain ⟨n, hn⟩ := (C26_is_integer_partial g1 (by rw [g2]; exact mul_ne_zero hy0 (by norm_num))).1 a1
    rw [g2] at hn
    rw [hn] at a2
    exact h n (by exact_mod_cast a2) (by linarith)
  simp only [key, Bool.false_eq_true, if_false]

/-- the integer path is not taken -/
theorem powInt_none (m : Mode) {x y : ℕ} (hx : binary64.Finite x) (hy : binary64.Finite y) (hy0 : binary64.val y ≠ 0) (sign : Bool)
    (h : (∀ n : ℤ, |n| ≤ 1024 → binary64.val y ≠ n) ∨ |binary64.val x| < 2 ^ (-1022 : ℤ)) : CC.powIntPath m x y sign {} = some none := by
  unfold CC.powIntPath
  rcases h with h | h
  · have key : (CC.isInteger y && binary64.hle (FPBits.abs binary64 y) 0x4090000000000000) = false := by
      rw [← Bool.not_eq_true, Bool.and_eq_true]
      rintro ⟨a1, a2⟩
      have c : binary64.Finite 0x4090000000000000 ∧ binary64.val 0x4090000000000000 = 1024 :=
        ⟨by rw [finite_iff]; decide +kernel, by rw [one64_val.val_of_ival' (a := 1024) (by decide +kernel)]; norm_num⟩
      have fm : binary64.Finite (FPBits.abs binary64 y) := by
        rw [FPBits.abs_eq]
        exact (binary64.finite_iff _).2 ⟨CC.valid_mag _ _, by rw [CC.mag_mag]; exact ((binary64.finite_iff _).1 hy).2⟩
      rw [CC.hle_finite binary64 fm c.1, FPBits.abs_eq, CC.val_mag, c.2] at a2
      obtain ⟨n, hn⟩ := (C26_is_integer_partial hy hy0).1 a1
      rw [hn] at a2
      exact h n (by exact_mod_cast a2) hn
    simp only [key, Bool.false_eq_true, if_false]
  · have hn : FPBits.isNormal binary64 x = false := by
      unfold FPBits.isNormal
      rw [FPBits.isSubnormal_eq]
      have hm : binary64.mag x < 2 ^ 63 := Nat.mod_lt _ (by norm_num)
      rw [← CC.val_mag, (pv_val hm).1, ← pv_min, pv_lt] at h
      have : binary64.bexp x = 0 := by
        change binary64.mag x / 2 ^ 52 = 0
        omega
      simp [this]
    simp only [hn, Bool.false_eq_true, if_false, ite_self]

/-- the clamp of the exponent is not reached -/
theorem powClamp_none {x y : ℕ} (hx : binary64.Finite x) (h0 : 0 < binary64.val x) (h1 : binary64.val x ≠ 1) (hy : binary64.Finite y)
    (X1 : (2 : ℝ) ^ (-1021 : ℤ) ≤ exp (binary64.val y * log (binary64.val x))) (X2 : exp (binary64.val y * log (binary64.val x)) ≤ (1 - 1 / 2 ^ 50) * 2 ^ (1024 : ℤ)) :
    ¬ FPBits.abs binary64 y > 0x43d74910d52d3052 := by
  intro hgt
  have l2 := log2_lo
  have hL := log_double_lower hx h0 h1
  have T1 : -1024 * log 2 ≤ binary64.val y * log (binary64.val x) := by
    have := log_le_log (two_zpow_pos _) X1
    rw [log_exp, log_zpow] at this
    push_cast at this
    linarith
  have T2 : binary64.val y * log (binary64.val x) ≤ 1024 * log 2 := by
    have h3 : exp (binary64.val y * log (binary64.val x)) ≤ 2 ^ (1024 : ℤ) := by
      refine X2.trans ?_
      have := two_zpow_pos 1024
      generalize (2 : ℝ) ^ (1024 : ℤ) = z at *
      linarith [show (0 : ℝ) ≤ 1 / 2 ^ 50 * z by positivity]
    have := log_le_log (exp_pos _) h3
    rw [log_exp, log_zpow] at this
    push_cast at this
    exact this
  have Tab : |binary64.val y| * |log (binary64.val x)| ≤ 1024 * log 2 := by rw [← abs_mul, abs_le]; constructor <;> linarith
  rw [abs_div, abs_of_pos (by linarith : 0 < log 2), le_div_iff₀ (by linarith)] at hL
  have h3 := (mul_le_mul_of_nonneg_left hL (abs_nonneg (binary64.val y))).trans Tab
  have h4 : |binary64.val y| * (143 / 100 * (1 / 2 ^ 53)) ≤ 1024 := by
    by_contra hc
    have := mul_lt_mul_of_pos_right (not_le.1 hc) (by linarith : 0 < log 2)
    linarith
  have h5 : (6711563375777761280 : ℝ) ≤ |binary64.val y| := by
    rw [← CC.val_mag binary64 y, ← FPBits.abs_eq]
    have hm : FPBits.abs binary64 y < 2 ^ 63 := by rw [FPBits.abs_eq]; exact Nat.mod_lt _ (by norm_num)
    have hv : binary64.val 0x43d74910d52d3052 = 6711563375777761280 := by
      rw [one64_val.val_of_ival' (a := 6711563375777761280) (by decide +kernel)]; norm_num
    rw [← hv, (pv_val hm).1, (pv_val (by norm_num)).1, pv_le]
    exact hgt.le
  norm_num at h4
  linarith

/-- the correctly rounded value of a number in the range is finite -/
theorem rnd64_finite {m : Mode} {zs : Bool} {v : ℝ} {r : ℕ} (R : binary64.RoundsTo m zs v r) (h0 : 0 < v) (h : v ≤ (1 - 1 / 2 ^ 50) * 2 ^ (1024 : ℤ)) : binary64.Finite r := by
  refine R.finite_of_le binary64 ?_
  rw [abs_of_pos h0]
  have hm := binary64.maxFin_add
  have e1 : ((binary64.bias : ℤ) + 1) = 1024 := by decide
  have e2 : ((binary64.bias : ℤ) - binary64.F) = 971 := by decide
  rw [e1, e2] at hm
  have e3 : (2 : ℝ) ^ (971 : ℤ) = 2 ^ (1024 : ℤ) * (1 / 2 ^ 53) := by
    rw [show (971 : ℤ) = 1024 + -53 by norm_num, zpow_add₀ (by norm_num)]; norm_num
  rw [e3] at hm
  have pz := two_zpow_pos 1024
  generalize (2 : ℝ) ^ (1024 : ℤ) = z at *
  norm_num at h hm ⊢; linarith

/-- one rounding on top of a relative error of `2^-58` -/
theorem finish_err58 {m : Mode} {r : ℕ} {w X : ℝ} (g4 : binary64.RoundsTo m false w r) (g3 : |w - X| ≤ X / 2 ^ 58) (hX : 0 < X) (h1 : (2 : ℝ) ^ (-1021 : ℤ) ≤ X)
    (h2 : X ≤ (1 - 1 / 2 ^ 50) * 2 ^ (1024 : ℤ)) :
    |binary64.val r - X| ≤ ((if m = .nearest then 1 / 2 ^ 53 else 1 / 2 ^ 52) + 1 / 2 ^ 57) * X := by
  change _ ≤ (ru m + _) * _
  have aX := abs_of_pos hX
  have t1 := abs_sub_abs_le_abs_sub X w
  have t2 := abs_sub_abs_le_abs_sub w X
  rw [abs_sub_comm] at t1
  rw [aX] at t1 t2
  have l : (2 : ℝ) ^ (-1022 : ℤ) ≤ |w| := by
    rw [show (-1021 : ℤ) = -1022 + 1 by norm_num, zpow_add_one₀ (by norm_num)] at h1
    generalize (2 : ℝ) ^ (-1022 : ℤ) = z at *
    norm_num at g3; linarith
  have u : |w| ≤ binary64.maxFin := by
    have hm := binary64.maxFin_add
    have e1 : ((binary64.bias : ℤ) + 1) = 1024 := by decide
    have e2 : ((binary64.bias : ℤ) - binary64.F) = 971 := by decide
    rw [e1, e2] at hm
    have e3 : (2 : ℝ) ^ (971 : ℤ) = 2 ^ (1024 : ℤ) * (1 / 2 ^ 53) := by
      rw [show (971 : ℤ) = 1024 + -53 by norm_num, zpow_add₀ (by norm_num)]; norm_num
    rw [e3] at hm
    have pz := two_zpow_pos 1024
    generalize (2 : ℝ) ^ (1024 : ℤ) = z at *
    norm_num at h2 hm g3 ⊢; linarith
  have e := err64n g4 l u
  have hu := ru_le m
  have hu0 := ru_pos m
  have t3 : ru m * |w| ≤ ru m * X + 1 / 2 ^ 52 * (X / 2 ^ 58) := by
    have h3 := mul_le_mul_of_nonneg_left (show |w| ≤ X + X / 2 ^ 58 by linarith) hu0.le
    have h4 := mul_le_mul_of_nonneg_right hu (div_nonneg hX.le (by norm_num : (0 : ℝ) ≤ 2 ^ 58))
    linarith
  rw [show binary64.val r - X = (binary64.val r - w) + (w - X) by ring]
  refine (abs_add_le' e g3).trans ?_
  have : X / 2 ^ 58 + 1 / 2 ^ 52 * (X / 2 ^ 58) ≤ 1 / 2 ^ 57 * X := by
    have : X / 2 ^ 58 + 1 / 2 ^ 52 * (X / 2 ^ 58) = (1 / 2 ^ 58 + 1 / 2 ^ 52 * (1 / 2 ^ 58)) * X := by ring
    rw [this]; exact mul_le_mul_of_nonneg_right (by norm_num) hX.le
  linarith

/-- a positive base that reaches the kernel -/
theorem powD_pos_kernel {ce fused : Bool} {m : Mode} (hc : ce = false ∨ m = .nearest) {x y : ℕ} (hx : binary64.Finite x) (h0 : 0 < binary64.val x)
    (h1 : x ≠ CC.one64) (hy : binary64.Finite y) (hy0 : binary64.val y ≠ 0) (hi : CC.powIntPath m x y false {} = some none) (hh : CC.powHalfPath m x y {} = some none)
    (X1 : (2 : ℝ) ^ (-1021 : ℤ) ≤ binary64.val x ^ binary64.val y) (X2 : binary64.val x ^ binary64.val y ≤ (1 - 1 / 2 ^ 50) * 2 ^ (1024 : ℤ)) :
    ∃ r w, CC.powD ce fused m x y = some (r, {}) ∧ binary64.Finite r ∧ |w - binary64.val x ^ binary64.val y| ≤ binary64.val x ^ binary64.val y / 2 ^ 58 ∧
      binary64.RoundsTo m false w r := by
  have hv1 : binary64.val x ≠ 1 := fun h => h1 (eq_one64 hx h)
  have hpw : binary64.val x ^ binary64.val y = exp (binary64.val y * log (binary64.val x)) := by rw [rpow_def_of_pos h0, mul_comm]
  rw [hpw] at X1 X2 ⊢
  have hcl := powClamp_none hx h0 hv1 hy X1 X2
  obtain ⟨r, hr, fr, -, zs, w, R, e⟩ := powKernel_spec (fused := fused) hc false hx h0 hv1 hy X1 X2
  have hp := exp_pos (binary64.val y * log (binary64.val x))
  rw [if_neg (by simp), one_mul, one_div, inv_mul_eq_div] at e
  have hw0 : w ≠ 0 := by
    intro h
    rw [h, zero_sub, abs_neg, abs_of_pos hp] at e
    linarith [show exp (binary64.val y * log (binary64.val x)) / 2 ^ 58 < exp (binary64.val y * log (binary64.val x)) from div_lt_self hp (by norm_num)]
  refine ⟨r, w, ?_, fr, e, ⟨R.valid, R.value, by rw [R.sign, if_neg hw0, if_neg hw0]⟩⟩
  · unfold CC.powD
    rw [powImpl_pos _ m hx h0 h1 hy hy0]
    simp only [hi, hh, if_neg hcl]
    exact hr

/-- the trivial powers -/
theorem powD_one {ce fused : Bool} {m : Mode} {x y : ℕ} (hx : binary64.Finite x) (hy : binary64.Finite y) (h : binary64.val y = 0 ∨ x = CC.one64) :
    CC.powD ce fused m x y = some (CC.one64, {}) := by
  have ny : ¬ binary64.IsNaN y := by rw [isNaN_iff]; have := ((binary64.finite_iff y).1 hy).2; omega
  have nx : ¬ binary64.IsNaN x := by rw [isNaN_iff]; have := ((binary64.finite_iff x).1 hx).2; omega
  unfold CC.powD
  by_cases hy0 : binary64.val y = 0
  · have n1 : binary64.nanB x = false := by rw [← Bool.not_eq_true, binary64.nanB_iff hx.1]; exact nx
    have n2 : binary64.nanB y = false := by rw [← Bool.not_eq_true, binary64.nanB_iff hy.1]; exact ny
    have e1 : FPBits.isSignalingNan binary64 x = false := by unfold FPBits.isSignalingNan; rw [FPBits.isNan_eq, n1]; rfl
    have e2 : FPBits.isSignalingNan binary64 y = false := by unfold FPBits.isSignalingNan; rw [FPBits.isNan_eq, n2]; rfl
    have e3 : FPBits.isZero binary64 y = true := by rw [FPBits.isZero_eq]; simp [zeroB, (binary64.val_eq_zero_iff y).1 hy0]
    unfold CC.powImpl
    simp only [e1, e2, e3, if_true, Bool.or_self]
  · have hym : binary64.mag y ≠ 0 := fun h => hy0 ((binary64.val_eq_zero_iff y).2 h)
    obtain ⟨-, e1, e2, e3, e4⟩ := powImpl_ord hx.1 hy.1 nx ny hym
    unfold CC.powImpl
    simp only [e1, e3, if_pos (h.resolve_left hy0), Bool.false_eq_true, if_false]

/-- **C88.** For every positive finite double `x` and every finite double `y` with `2^-1021 ≤ x^y ≤ (1 - 2^-50)·2^1024`, `pow(x, y)` is finite, is the correctly
rounded value (in the current mode) of a number that differs from `x^y` by at most one part in `2^58`, and leaves `errno` and the explicit exception flags alone.
This holds in all four rounding modes at run time, in constant evaluation (`ce`, rounding to nearest), with and without fused multiply-add. -/
theorem C88_pow {ce fused : Bool} {m : Mode} (hc : ce = false ∨ m = .nearest) {x y : ℕ} (hx : binary64.Finite x) (h0 : 0 < binary64.val x) (hy : binary64.Finite y)
    (X1 : (2 : ℝ) ^ (-1021 : ℤ) ≤ binary64.val x ^ binary64.val y) (X2 : binary64.val x ^ binary64.val y ≤ (1 - 1 / 2 ^ 50) * 2 ^ (1024 : ℤ)) :
    ∃ r w, CC.powD ce fused m x y = some (r, {}) ∧ binary64.Finite r ∧ |w - binary64.val x ^ binary64.val y| ≤ binary64.val x ^ binary64.val y / 2 ^ 58 ∧
      binary64.RoundsTo m false w r := by
  have o := one64_val
  have Rone : binary64.RoundsTo m false 1 CC.one64 := by
    obtain ⟨b, R⟩ := binary64.exists_roundsTo m false 1
    have := RoundsTo.exact_eq binary64 o.1 (by rw [o.2]; exact R) (fun h => by rw [o.2] at h; norm_num at h)
    rw [this] at R; exact R
  have hp := rpow_pos_of_pos h0 (binary64.val y)
  have weak : ∀ {d : ℝ}, |d| ≤ binary64.val x ^ binary64.val y / 2 ^ 83 → |d| ≤ binary64.val x ^ binary64.val y / 2 ^ 58 := fun h =>
    h.trans (div_le_div_of_nonneg_left hp.le (by norm_num) (by norm_num))
  by_cases hy0 : binary64.val y = 0
  · exact ⟨_, 1, powD_one hx hy (Or.inl hy0), o.1, by rw [hy0, rpow_zero]; norm_num, Rone⟩
  by_cases h1 : x = CC.one64
  · exact ⟨_, 1, powD_one hx hy (Or.inr h1), o.1, by rw [h1, o.2, one_rpow]; norm_num, Rone⟩
  by_cases hh : ∃ n : ℤ, |n| ≤ 2048 ∧ binary64.val y = n / 2
  · obtain ⟨n, hn, hyn⟩ := hh
    have hn' := abs_le.1 hn
    rcases Int.even_or_odd' n with ⟨k, hk | hk⟩
    · have hyk : binary64.val y = k := by rw [hyn, hk]; push_cast; ring
      by_cases hxn : (2 : ℝ) ^ (-1022 : ℤ) ≤ binary64.val x
      · have hpz : binary64.val x ^ binary64.val y = binary64.val x ^ k := by rw [hyk, rpow_intCast]
        have hab := abs_of_pos hp
        rw [hpz] at hab
        obtain ⟨r, w, g1, g2, g3, g4⟩ := C85_pow_int (CC.powKernel ce fused m) m hx (by rw [abs_of_pos h0]; exact hxn) hy hyk (fun h => hy0 (by rw [hyk, h]; simp))
          (by rw [abs_le]; constructor <;> omega) (by rw [hab, ← hpz]; exact X1) (by rw [hab, ← hpz]; exact X2)
        rw [hab, ← hpz] at g3
        exact ⟨r, w, g1, g2, weak g3, g4⟩
      · exact powD_pos_kernel hc hx h0 h1 hy hy0 (powInt_none m hx hy hy0 false (Or.inr (by rw [abs_of_pos h0]; exact not_le.1 hxn))) (powHalf_none m hy hy0 (Or.inl ⟨k, hyk⟩)) X1 X2
    · by_cases hn1 : n = 1
      · have hyh : binary64.val y = 1 / 2 := by rw [hyn, hn1]; norm_num
        obtain ⟨r, g1, g2⟩ := C52_pow_half (CC.powKernel ce fused m) m hx h0 hy hyh
        rw [sqrt_eq_rpow, ← hyh] at g2
        exact ⟨r, _, g1, (rnd64_finite g2 hp X2), by rw [sub_self, abs_zero]; positivity, g2⟩
      by_cases hn2 : n = -1
      · have hyh : binary64.val y = -(1 / 2) := by rw [hyn, hn2]; norm_num
        obtain ⟨r, g1, g2⟩ := C52_pow_neg_half (CC.powKernel ce fused m) m hx h0 hy hyh
        rw [sqrt_eq_rpow, one_div, ← rpow_neg h0.le, ← hyh] at g2
        exact ⟨r, _, g1, (rnd64_finite g2 hp X2), by rw [sub_self, abs_zero]; positivity, g2⟩
      obtain ⟨r, w, g1, g2, g3, g4⟩ := C87_pow_half_integer (CC.powKernel ce fused m) m hx h0 hy hyn ⟨k, hk⟩
        (by rcases abs_cases n with h | h <;> omega) (by rcases abs_cases n with h | h <;> omega) X1 X2
      exact ⟨r, w, g1, g2, weak g3, g4⟩
  · exact powD_pos_kernel hc hx h0 h1 hy hy0
      (powInt_none m hx hy hy0 false (Or.inl fun n hn he => hh ⟨2 * n, by rw [abs_mul]; simpa using (by omega : 2 * |n| ≤ 2048), by rw [he]; push_cast; ring⟩))
      (powHalf_none m hy hy0 (Or.inr fun n hn he => hh ⟨n, hn, he⟩)) X1 X2

/-- C88, as an error bound: less than 0.516 ulp-of-a-power-of-two units to nearest (`2^-53 + 2^-57` relative), just above one unit in the directed modes. -/
theorem C88_pow_error {ce fused : Bool} {m : Mode} (hc : ce = false ∨ m = .nearest) {x y : ℕ} (hx : binary64.Finite x) (h0 : 0 < binary64.val x) (hy : binary64.Finite y)
    (X1 : (2 : ℝ) ^ (-1021 : ℤ) ≤ binary64.val x ^ binary64.val y) (X2 : binary64.val x ^ binary64.val y ≤ (1 - 1 / 2 ^ 50) * 2 ^ (1024 : ℤ)) :
    ∃ r, CC.powD ce fused m x y = some (r, {}) ∧ binary64.Finite r ∧
      |binary64.val r - binary64.val x ^ binary64.val y| ≤ ((if m = .nearest then 1 / 2 ^ 53 else 1 / 2 ^ 52) + 1 / 2 ^ 57) * binary64.val x ^ binary64.val y := by
  obtain ⟨r, w, g1, g2, g3, g4⟩ := C88_pow (fused := fused) hc hx h0 hy X1 X2
  have hp := rpow_pos_of_pos h0 (binary64.val y)
  exact ⟨r, g1, g2, finish_err58 g4 g3 hp X1 X2⟩

/-- non-vacuity: `10^0.3`, in the upward mode -/
example : ∃ r w, CC.powD false true .up 0x4024000000000000 0x3FD3333333333333 = some (r, {}) ∧ binary64.Finite r ∧
    |w - binary64.val 0x4024000000000000 ^ binary64.val 0x3FD3333333333333| ≤ binary64.val 0x4024000000000000 ^ binary64.val 0x3FD3333333333333 / 2 ^ 58 ∧
    binary64.RoundsTo .up false w r := by
  have vx : binary64.val 0x4024000000000000 = 10 := by rw [one64_val.val_of_ival' (a := 10) (by decide +kernel)]; norm_num
  have hy : binary64.Finite 0x3FD3333333333333 := by rw [finite_iff]; decide +kernel
  have y0 : 0 < binary64.val 0x3FD3333333333333 := by
    rw [(pv_val (by norm_num)).1]; exact lt_of_le_of_lt (pv_nonneg 0) (pv_lt.2 (by norm_num))
  have y1 : binary64.val 0x3FD3333333333333 ≤ 1 := by
    rw [← one64_val.2, (pv_val (by norm_num)).1, (pv_val (by decide +kernel)).1, pv_le]; decide +kernel
  refine C88_pow (Or.inl rfl) (by rw [finite_iff]; decide +kernel) (by rw [vx]; norm_num) hy ?_ ?_
  · rw [vx]
    refine le_trans (le_trans (two_zpow_le (by norm_num : (-1021 : ℤ) ≤ 0)) (by norm_num)) (one_le_rpow (by norm_num) y0.le)
  · rw [vx]
    have h : (10 : ℝ) ^ binary64.val 0x3FD3333333333333 ≤ 10 := by
      conv_rhs => rw [← rpow_one (10 : ℝ)]
      exact rpow_le_rpow_of_exponent_le (by norm_num) y1
    refine h.trans ?_
    have : (2 : ℝ) ^ (5 : ℤ) ≤ 2 ^ (1024 : ℤ) := two_zpow_le (by norm_num)
    generalize (2 : ℝ) ^ (1024 : ℤ) = z at *
    norm_num at this ⊢; linarith

/-- the paths of `pow` for a negative base and an integer exponent -/
theorem powImpl_negInt (kernel : ℕ → ℕ → Bool → Option (ℕ × CC.PowEff)) (m : Mode) {x y : ℕ} {n : ℤ} (hx : binary64.Finite x) (hx0 : binary64.val x < 0)
    (hy : binary64.Finite y) (hyn : binary64.val y = n) (hn : n ≠ 0) (hi : CC.powIntPath m (binary64.mag x) y (CC.isOddInteger y) {} = some none)
    (hh : CC.powHalfPath m (binary64.mag x) y {} = some none) (hcl : ¬ FPBits.abs binary64 y > 0x43d74910d52d3052) :
    CC.powImpl kernel m x y = kernel (binary64.mag x) y (CC.isOddInteger y) := by
  have hy0 : binary64.val y ≠ 0 := by rw [hyn]; exact_mod_cast hn
  have hxm : binary64.mag x ≠ 0 := fun h => hx0.ne ((binary64.val_eq_zero_iff x).2 h)
  have hym : binary64.mag y ≠ 0 := fun h => hy0 ((binary64.val_eq_zero_iff y).2 h)
  have hxf := ((binary64.finite_iff x).1 hx).2
  have hyf := ((binary64.finite_iff y).1 hy).2
  have nx : ¬ binary64.IsNaN x := by rw [isNaN_iff]; omega
  have ny : ¬ binary64.IsNaN y := by rw [isNaN_iff]; omega
  have h1 : x ≠ CC.one64 := by rintro rfl; rw [one64_val.2] at hx0; norm_num at hx0
  obtain ⟨-, e1, e2, e3, e4⟩ := powImpl_ord hx.1 hy.1 nx ny hym
  have e5 : FPBits.isZero binary64 x = false := by rw [FPBits.isZero_eq]; simp [zeroB, hxm]
  have e6 : FPBits.isInf binary64 x = false := by rw [FPBits.isInf_eq]; simp [infB, hxf.ne]
  have e7 : FPBits.isInf binary64 y = false := by rw [FPBits.isInf_eq]; simp [infB, hyf.ne]
  have e8 : binary64.hlt x (binary64.zero false) = true := by
    rw [CC.hlt_finite binary64 hx (binary64.finite_zero false), val_zero]; exact hx0
  have e9 : CC.isInteger y = true := (C26_is_integer_partial hy hy0).2 ⟨n, hyn⟩
  unfold CC.powImpl
  simp only [e1, e2, e3, e5, e6, e7, e8, e9, if_neg h1, Bool.false_eq_true, if_false, Bool.not_true, Bool.and_false, if_true, Bool.true_and, FPBits.abs_eq binary64 x, hi, hh, if_neg hcl]

/-- C88 for a negative base: for every negative finite `x ≠ -1` and every non-zero integer-valued double `y = n` (of any size) with
`2^-1021 ≤ |x^n| ≤ (1 - 2^-50)·2^1024` the same accuracy, with the sign of `x^n`. -/
theorem C88_pow_negative_base {ce fused : Bool} {m : Mode} (hc : ce = false ∨ m = .nearest) {x y : ℕ} {n : ℤ} (hx : binary64.Finite x) (h0 : binary64.val x < 0)
    (h1 : binary64.val x ≠ -1) (hy : binary64.Finite y) (hyn : binary64.val y = n) (hn : n ≠ 0)
    (X1 : (2 : ℝ) ^ (-1021 : ℤ) ≤ |binary64.val x ^ n|) (X2 : |binary64.val x ^ n| ≤ (1 - 1 / 2 ^ 50) * 2 ^ (1024 : ℤ)) :
    ∃ r w, CC.powD ce fused m x y = some (r, {}) ∧ binary64.Finite r ∧ |w - binary64.val x ^ n| ≤ |binary64.val x ^ n| / 2 ^ 58 ∧ binary64.RoundsTo m false w r := by
  have hy0 : binary64.val y ≠ 0 := by rw [hyn]; exact_mod_cast hn
  by_cases hs : |n| ≤ 1024 ∧ (2 : ℝ) ^ (-1022 : ℤ) ≤ |binary64.val x|
  · obtain ⟨r, w, g1, g2, g3, g4⟩ := C85_pow_int (CC.powKernel ce fused m) m hx hs.2 hy hyn hn hs.1 X1 X2
    exact ⟨r, w, g1, g2, g3.trans (div_le_div_of_nonneg_left (abs_nonneg _) (by norm_num) (by norm_num)), g4⟩
  have vm : binary64.val (binary64.mag x) = -binary64.val x := by rw [CC.val_mag, abs_of_neg h0]
  have fm : binary64.Finite (binary64.mag x) := (binary64.finite_iff _).2 ⟨CC.valid_mag _ _, by rw [CC.mag_mag]; exact ((binary64.finite_iff x).1 hx).2⟩
  have hi : CC.powIntPath m (binary64.mag x) y (CC.isOddInteger y) {} = some none := by
    refine powInt_none m fm hy hy0 _ ?_
    rcases not_and_or.1 hs with h | h
    · left
      intro k hk he
      rw [hyn] at he
      have : n = k := by exact_mod_cast he
      exact h (this ▸ hk)
    · right
      rw [CC.val_mag, abs_abs]; exact not_le.1 h
  have hh : CC.powHalfPath m (binary64.mag x) y {} = some none := powHalf_none m hy hy0 (Or.inl ⟨n, hyn⟩)
  have pm : 0 < binary64.val (binary64.mag x) := by rw [vm]; linarith
  have hv1 : binary64.val (binary64.mag x) ≠ 1 := by rw [vm]; intro h; exact h1 (by linarith)
  have hpw : |binary64.val x ^ n| = exp (binary64.val y * log (binary64.val (binary64.mag x))) := by
    rw [abs_zpow, ← CC.val_mag, mul_comm, ← rpow_def_of_pos pm, hyn, rpow_intCast]
  have hsg : binary64.val x ^ n = (if CC.isOddInteger y = true then -1 else 1) * |binary64.val x ^ n| := by
    have hodd : CC.isOddInteger y = true ↔ Odd n := by
      rw [C26_is_odd_integer hy, hyn]
      constructor
      · rintro ⟨k, hk⟩; exact ⟨k, by exact_mod_cast hk⟩
      · rintro ⟨k, hk⟩; exact ⟨k, by rw [hk]; push_cast; rfl⟩
    rw [abs_zpow, abs_of_neg h0]
    by_cases ho : Odd n
    · rw [if_pos (hodd.2 ho), ho.neg_zpow]; ring
    · rw [if_neg (by rw [hodd]; exact ho), (Int.not_odd_iff_even.1 ho).neg_zpow, one_mul]
  have hp : 0 < |binary64.val x ^ n| := lt_of_lt_of_le (two_zpow_pos _) X1
  rw [hpw] at X1 X2
  have hcl := powClamp_none fm pm hv1 hy X1 X2
  obtain ⟨r, hr, fr, -, zs, w, R, e⟩ := powKernel_spec (fused := fused) hc (CC.isOddInteger y) fm pm hv1 hy X1 X2
  rw [← hpw, ← hsg, one_div, inv_mul_eq_div] at e
  have hw0 : w ≠ 0 := by
    intro h
    rw [h, zero_sub, abs_neg] at e
    linarith [show |binary64.val x ^ n| / 2 ^ 58 < |binary64.val x ^ n| from div_lt_self hp (by norm_num)]
  refine ⟨r, w, ?_, fr, e, ⟨R.valid, R.value, by rw [R.sign, if_neg hw0, if_neg hw0]⟩⟩
  · unfold CC.powD
    rw [powImpl_negInt _ m hx h0 hy hyn hn hi hh hcl]
    exact hr

/-- non-vacuity: `(-1.5)^1025`, beyond the integer path -/
example : ∃ r w, CC.powD false false .down 0xBFF8000000000000 0x4090040000000000 = some (r, {}) ∧ binary64.Finite r ∧
    |w - (-(3 / 2) : ℝ) ^ (1025 : ℤ)| ≤ |(-(3 / 2) : ℝ) ^ (1025 : ℤ)| / 2 ^ 58 ∧ binary64.RoundsTo .down false w r := by
  have vx : binary64.val 0xBFF8000000000000 = -(3 / 2) := by
    rw [lit64 (x := 0xBFF8000000000000) true 0x18000000000000 52 (by decide +kernel) (by decide +kernel) (by decide +kernel) (by decide +kernel), sg_true]; norm_num
  have vy : binary64.val 0x4090040000000000 = (1025 : ℤ) := by rw [one64_val.val_of_ival' (a := 1025) (by decide +kernel)]
  have h5 : |(-(3 / 2) : ℝ) ^ (1025 : ℤ)| = ((3 / 2) ^ 5) ^ 205 := by
    rw [abs_zpow, abs_neg, abs_of_pos (by norm_num), ← pow_mul]; norm_cast
  have := C88_pow_negative_base (ce := false) (fused := false) (m := .down) (Or.inl rfl) (x := 0xBFF8000000000000) (y := 0x4090040000000000) (n := 1025)
    (by rw [finite_iff]; decide +kernel) (by rw [vx]; norm_num) (by rw [vx]; norm_num) (by rw [finite_iff]; decide +kernel) vy (by norm_num)
  rw [vx] at this
  refine this ?_ ?_ <;> clear this
  · rw [h5]
    exact le_trans (le_trans (two_zpow_le (by norm_num : (-1021 : ℤ) ≤ 0)) (by norm_num)) (one_le_pow₀ (by norm_num))
  · rw [h5]
    have h1 : (((3 : ℝ) / 2) ^ 5) ^ 205 ≤ 8 ^ 205 := by gcongr; norm_num
    have h2 : (8 : ℝ) ^ 205 = 2 ^ (615 : ℤ) := by rw [show (8 : ℝ) = 2 ^ 3 by norm_num, ← pow_mul]; exact (zpow_natCast (2 : ℝ) 615).symm
    have h3 : (2 : ℝ) ^ (1024 : ℤ) = 2 ^ (615 : ℤ) * 2 ^ (409 : ℤ) := by rw [← zpow_add₀ (by norm_num)]; norm_num
    have h4 : (2 : ℝ) ^ (1 : ℤ) ≤ 2 ^ (409 : ℤ) := two_zpow_le (by norm_num)
    rw [h2] at h1
    refine h1.trans ?_
    rw [h3]
    have p0 := two_zpow_pos 615
    have : (2 : ℝ) ^ (615 : ℤ) * 2 ≤ 2 ^ (615 : ℤ) * 2 ^ (409 : ℤ) := mul_le_mul_of_nonneg_left (by rw [zpow_one] at h4; exact h4) p0.le
    generalize (2 : ℝ) ^ (615 : ℤ) * 2 ^ (409 : ℤ) = z at *
    generalize (2 : ℝ) ^ (615 : ℤ) = u at *
    clear h1 h2 h3 h4 h5
    norm_num at this ⊢; linarith

/-- C88, finding: `pow` overflows to infinity without setting `errno` (and without `FE_OVERFLOW` from an explicit call) when the product `64 y log2 x` is so large
that the kernel clamps it (here `(1 + 2^-52)^(2^62 + 2^10)`), whereas an overflow just above the range, `2^1024.5`, sets `ERANGE`. -/
theorem C88_pow_overflow_no_errno :
    CC.powD false true .nearest 0x3FF0000000000001 0x43D0000000000001 = some (binary64.inf false, {}) ∧
      CC.powD false true .nearest 0x4000000000000000 0x4090020000000000 = some (binary64.inf false, { errno := some .erange, overflow := true }) := by
  constructor <;> decide +kernel

/-- two doubles of the same sign are at least a relative `2^-53` apart -/
theorem double_gap {a b : ℕ} (h0 : 0 < binary64.val a) (h : binary64.val a < binary64.val b) : binary64.val a / 2 ^ 53 ≤ binary64.val b - binary64.val a := by
  have hF : (binary64.F : ℤ) = 52 := by decide +kernel
  have hc : binary64.ce a ≤ binary64.ce b := ce_le_of_abs_le (by rw [abs_of_pos h0, abs_of_pos (h0.trans h)]; exact h.le)
  have M := ((binary64.mult_ce b).weaken hc).sub (binary64.mult_ce a)
  have h1 := M.ge (by linarith)
  rw [abs_of_pos (by linarith)] at h1
  have h2 := binary64.abs_val_lt_ce a
  rw [abs_of_pos h0, hF, show binary64.ce a + 52 + 1 = binary64.ce a + 53 by ring, zpow_add₀ (by norm_num)] at h2
  rw [div_le_iff₀ (by norm_num)]
  have : (2 : ℝ) ^ (53 : ℤ) = 2 ^ 53 := by norm_num
  rw [this] at h2
  nlinarith

/-- a nearest rounding of a number within `2^-58` of `X` respects every double bound of `X` -/
theorem nearest_bounds {zs : Bool} {w X : ℝ} {r : ℕ} (R : binary64.RoundsTo .nearest zs w r) (hr : binary64.Finite r) (hX : 0 < X) (e : |w - X| ≤ X / 2 ^ 58)
    {c : ℕ} (hc : binary64.Finite c) : (binary64.val c ≤ X → binary64.val c ≤ binary64.val r) ∧ (X ≤ binary64.val c → binary64.val r ≤ binary64.val c) := by
  have hn : |binary64.val r - w| ≤ |binary64.val c - w| := by
    have hv := R.value
    simp only [RoundValue] at hv
    split_ifs at hv with h1 h2
    · rw [hv] at hr; exact absurd hr (by decide +kernel)
    · rw [hv] at hr; exact absurd hr (by decide +kernel)
    · exact hv.best c hc
  have eb := abs_le.1 e
  have hw : 0 < w := by have := div_lt_self hX (show (1 : ℝ) < 2 ^ 58 by norm_num); linarith
  have hr0 : 0 ≤ binary64.val r := by
    have h2 := CC.val_eq_sg_abs binary64 r
    rw [R.sign, if_neg hw.ne', decide_eq_false (not_lt.2 hw.le), sg_false, one_mul] at h2
    rw [h2]; exact abs_nonneg _
  constructor
  · intro h
    by_contra hlt
    push Not at hlt
    have hm : w ≤ (binary64.val r + binary64.val c) / 2 := by
      by_contra hh
      push Not at hh
      rw [abs_of_nonpos (by linarith : binary64.val r - w ≤ 0)] at hn
      rcases abs_cases (binary64.val c - w) with ⟨h3, -⟩ | ⟨h3, -⟩ <;> rw [h3] at hn <;> linarith
    have c0 : 0 < binary64.val c := lt_of_le_of_lt hr0 hlt
    have r0 : 0 < binary64.val r := by norm_num at eb; linarith
    have := double_gap r0 hlt
    norm_num at eb this; linarith
  · intro h
    by_contra hlt
    push Not at hlt
    have hm : (binary64.val r + binary64.val c) / 2 ≤ w := by
      by_contra hh
      push Not at hh
      rw [abs_of_nonneg (by linarith : 0 ≤ binary64.val r - w)] at hn
      rcases abs_cases (binary64.val c - w) with ⟨h3, -⟩ | ⟨h3, -⟩ <;> rw [h3] at hn <;> linarith
    have := double_gap (lt_of_lt_of_le hX h) hlt
    norm_num at eb this; linarith

/-- **C89.** To nearest, `pow` respects every bound by a double: if a double `c` is below (above) `x^y`, it is below (above) `pow(x, y)`.  So the result is one of the two
doubles around `x^y` (faithful rounding), exact whenever `x^y` is a double, at least 1 where the power is, and so on.  Range as in C88. -/
theorem C89_pow_nearest_faithful {ce fused : Bool} {x y : ℕ} (hx : binary64.Finite x) (h0 : 0 < binary64.val x) (hy : binary64.Finite y)
    (X1 : (2 : ℝ) ^ (-1021 : ℤ) ≤ binary64.val x ^ binary64.val y) (X2 : binary64.val x ^ binary64.val y ≤ (1 - 1 / 2 ^ 50) * 2 ^ (1024 : ℤ)) :
    ∃ r, CC.powD ce fused .nearest x y = some (r, {}) ∧ binary64.Finite r ∧ ∀ c, binary64.Finite c →
      (binary64.val c ≤ binary64.val x ^ binary64.val y → binary64.val c ≤ binary64.val r) ∧ (binary64.val x ^ binary64.val y ≤ binary64.val c → binary64.val r ≤ binary64.val c) := by
  obtain ⟨r, w, g1, g2, g3, g4⟩ := C88_pow (ce := ce) (fused := fused) (m := .nearest) (Or.inr rfl) hx h0 hy X1 X2
  exact ⟨r, g1, g2, fun c hc => nearest_bounds g4 g2 (rpow_pos_of_pos h0 _) g3 hc⟩

/-- C89: to nearest, a power that is a double is returned exactly -/
theorem C89_pow_nearest_exact {ce fused : Bool} {x y c : ℕ} (hx : binary64.Finite x) (h0 : 0 < binary64.val x) (hy : binary64.Finite y) (hc : binary64.Finite c)
    (h : binary64.val x ^ binary64.val y = binary64.val c)
    (X1 : (2 : ℝ) ^ (-1021 : ℤ) ≤ binary64.val x ^ binary64.val y) (X2 : binary64.val x ^ binary64.val y ≤ (1 - 1 / 2 ^ 50) * 2 ^ (1024 : ℤ)) :
    ∃ r, CC.powD ce fused .nearest x y = some (r, {}) ∧ binary64.Finite r ∧ binary64.val r = binary64.val c := by
  obtain ⟨r, g1, g2, g3⟩ := C89_pow_nearest_faithful (ce := ce) (fused := fused) hx h0 hy X1 X2
  exact ⟨r, g1, g2, le_antisymm ((g3 c hc).2 h.le) ((g3 c hc).1 h.ge)⟩

/-- non-vacuity: `81^(1/4) = 3` -/
theorem rpow_81 : binary64.val 0x4054400000000000 ^ binary64.val 0x3FD0000000000000 = 3 ∧ binary64.val 0x4008000000000000 = 3 := by
  have vx : binary64.val 0x4054400000000000 = 81 := by rw [one64_val.val_of_ival' (a := 81) (by decide +kernel)]; norm_num
  have vy : binary64.val 0x3FD0000000000000 = 1 / 4 := by
    rw [lit64 (x := 0x3FD0000000000000) false 0x10000000000000 54 (by decide +kernel) (by decide +kernel) (by decide +kernel) (by decide +kernel), sg_false]; norm_num
  have vc : binary64.val 0x4008000000000000 = 3 := by rw [one64_val.val_of_ival' (a := 3) (by decide +kernel)]; norm_num
  rw [vx, vy, vc, show (81 : ℝ) = 3 ^ (4 : ℝ) by norm_num, ← rpow_mul (by norm_num)]
  norm_num

example : ∃ r, CC.powD true false .nearest 0x4054400000000000 0x3FD0000000000000 = some (r, {}) ∧ binary64.Finite r ∧ binary64.val r = binary64.val 0x4008000000000000 := by
  have vx : binary64.val 0x4054400000000000 = 81 := by rw [one64_val.val_of_ival' (a := 81) (by decide +kernel)]; norm_num
  obtain ⟨h1, h2⟩ := rpow_81
  refine C89_pow_nearest_exact (by rw [finite_iff]; decide +kernel) (by rw [vx]; norm_num) (by rw [finite_iff]; decide +kernel) (by rw [finite_iff]; decide +kernel) (by rw [h1, h2]) ?_ ?_
  · rw [h1]
    exact le_trans (two_zpow_le (by norm_num : (-1021 : ℤ) ≤ 0)) (by norm_num)
  · rw [h1]
    have : (2 : ℝ) ^ (5 : ℤ) ≤ 2 ^ (1024 : ℤ) := two_zpow_le (by norm_num)
    generalize (2 : ℝ) ^ (1024 : ℤ) = z at *
    norm_num at this ⊢; linarith

/-- C89, finding: in the directed modes the result is neither correctly nor faithfully rounded, although the source says it is "correctly rounded" in the active
mode: `81^(1/4)` is exactly 3, but `pow` returns the double below 3 downward and toward zero and the double above 3 upward. -/
theorem C89_pow_directed_wrong (fused : Bool) :
    binary64.val 0x4054400000000000 ^ binary64.val 0x3FD0000000000000 = binary64.val 0x4008000000000000 ∧
      CC.powD false fused .down 0x4054400000000000 0x3FD0000000000000 = some (0x4007FFFFFFFFFFFF, {}) ∧
      CC.powD false fused .zero 0x4054400000000000 0x3FD0000000000000 = some (0x4007FFFFFFFFFFFF, {}) ∧
      CC.powD false fused .up 0x4054400000000000 0x3FD0000000000000 = some (0x4008000000000001, {}) := by
  refine ⟨by rw [rpow_81.1, rpow_81.2], ?_, ?_, ?_⟩ <;> cases fused <;> decide +kernel

end Verif
