import Verif.Props.InvTrig

/-!
# Properties of double atan2 (C71)

The reference is `Complex.arg ⟨x, y⟩`, the angle of the point `(x, y)` in `(-π, π]`.
-/

namespace Verif
open Fmt Real

theorem hge_finite' {x y : ℕ} (hx : binary64.Finite x) (hy : binary64.Finite y) : binary64.hge x y = true ↔ binary64.val y ≤ binary64.val x :=
  CC.hle_finite binary64 hy hx

/-- **C71.** Double `atan2(y, x)` of every two finite doubles, not both zero, is finite and within 22 rounding units (plus five least subnormals) of the angle of the point `(x, y)`,
in every rounding mode, with or without fused multiply-add, also when `y / x` overflows or underflows. -/
theorem C71_atan2 (fused : Bool) (md : Mode) {x y : ℕ} (hx : binary64.Finite x) (hy : binary64.Finite y) (h0 : ¬ (binary64.val x = 0 ∧ binary64.val y = 0)) :
    binary64.Finite (CC.atan2Double fused md y x) ∧
      |binary64.val (CC.atan2Double fused md y x) - Complex.arg ⟨binary64.val x, binary64.val y⟩| ≤
        22 * (if md = .nearest then 1 / 2 ^ 53 else 1 / 2 ^ 52) * |Complex.arg ⟨binary64.val x, binary64.val y⟩| + 5 * (2 : ℝ) ^ (-1074 : ℤ) := by
  have e : (if md = .nearest then 1 / 2 ^ 53 else 1 / 2 ^ 52 : ℝ) = ru md := rfl
  rw [e, ← eta_def]
  have hu := ru_pos md
  have hu2 := ru_le md
  have hu3 := ru_ge md
  have hη := eta_le
  have hη0 := eta_pos
  have hpi1 := Real.pi_gt_d20
  have hpi2 := Real.pi_lt_d20
  obtain ⟨nx, ix⟩ := not_nan_inf hx
  obtain ⟨ny, iy⟩ := not_nan_inf hy
  unfold CC.atan2Double
  dsimp only
  rw [nx, ny, ix, iy]
  simp only [Bool.false_eq_true, Bool.or_false, if_false]
  by_cases c : binary64.heq x 0 = true
  · rw [if_pos c, pi_div_two]
    rw [CC.heq_finite binary64 hx val_zero64.1, val_zero64.2] at c
    rw [c]
    have hne : binary64.val y ≠ 0 := fun h => h0 ⟨c, h⟩
    rcases lt_or_gt_of_ne hne with h | h
    · rw [if_neg (by rw [hgt_finite' hy val_zero64.1, val_zero64.2]; linarith), if_pos (by rw [CC.hlt_finite binary64 hy val_zero64.1, val_zero64.2]; exact h)]
      have a := Complex.arg_eq_neg_pi_div_two_iff.2 (show (⟨0, binary64.val y⟩ : ℂ).re = 0 ∧ (⟨0, binary64.val y⟩ : ℂ).im < 0 from ⟨rfl, h⟩)
      have n := (ap_pi2 md).neg
      refine ⟨n.fin, ?_⟩
      rw [a]
      have := n.err
      have k := mul_le_mul_of_nonneg_left (show (56 : ℝ) / 100 ≤ 22 * |-(π / 2)| by rw [abs_neg, abs_of_pos (by linarith [Real.pi_pos])]; norm_num at *; linarith) hu.le
      linarith
    · rw [if_pos (by rw [hgt_finite' hy val_zero64.1, val_zero64.2]; exact h)]
      have a := Complex.arg_eq_pi_div_two_iff.2 (show (⟨0, binary64.val y⟩ : ℂ).re = 0 ∧ 0 < (⟨0, binary64.val y⟩ : ℂ).im from ⟨rfl, h⟩)
      have n := ap_pi2 md
      refine ⟨n.fin, ?_⟩
      rw [a]
      have := n.err
      have k := mul_le_mul_of_nonneg_left (show (56 : ℝ) / 100 ≤ 22 * |π / 2| by rw [abs_of_pos (by linarith [Real.pi_pos])]; norm_num at *; linarith) hu.le
      linarith
  · rw [if_neg c]
    rw [CC.heq_finite binary64 hx val_zero64.1, val_zero64.2] at c
    obtain ⟨fa, ea⟩ := atan_quot fused md hx hy c
    generalize CC.atanDouble fused md (binary64.hdiv md y x) = a at *
    have hb := Real.arctan_lt_pi_div_two (binary64.val y / binary64.val x)
    have hb2 := Real.neg_pi_div_two_lt_arctan (binary64.val y / binary64.val x)
    by_cases cx : binary64.hlt x 0 = true
    · rw [if_pos cx]
      rw [CC.hlt_finite binary64 hx val_zero64.1, val_zero64.2] at cx
      have ap : Ap md a (arctan (binary64.val y / binary64.val x)) 2 (20 * |arctan (binary64.val y / binary64.val x)| + 1 / 10 ^ 6) := by
        refine ⟨fa, le_trans ea ?_, abs_le.2 (by constructor <;> norm_num at * <;> linarith)⟩
        have c1 : 5 * ((1 : ℝ) / 2 ^ 200) ≤ 1 / 2 ^ 53 * (1 / 10 ^ 6) := by norm_num
        have c2 := mul_le_mul_of_nonneg_right hu3 (show (0 : ℝ) ≤ 1 / 10 ^ 6 by norm_num)
        linarith
      by_cases cy : binary64.hge y 0 = true
      · rw [if_pos cy]
        rw [hge_finite' hy val_zero64.1, val_zero64.2] at cy
        rw [arg_re_neg_im_nonneg cx cy]
        have hq : arctan (binary64.val y / binary64.val x) ≤ 0 := by
          rw [← neg_nonneg, ← Real.arctan_neg]; exact Real.arctan_nonneg.2 (by rw [← div_neg]; exact div_nonneg cy (by linarith))
        rw [abs_of_nonpos hq] at ap
        generalize arctan (binary64.val y / binary64.val x) = v at *
        have s := Ap.add ap (ap_pi md) (S := v + π) (B := v + π) (e := 22 * (v + π)) (by rw [abs_of_nonneg (by linarith [Real.pi_pos])]) le_rfl
          (by clear ea ap; norm_num at *; linarith) (by clear ea ap; norm_num at *; linarith)
        refine ⟨s.fin, ?_⟩
        have := s.err
        rw [abs_of_nonneg (a := v + π) (by linarith [Real.pi_pos])]
        linarith
      · rw [if_neg cy]
        rw [hge_finite' hy val_zero64.1, val_zero64.2, not_le] at cy
        rw [arg_re_neg_im_neg cx cy]
        have hq : 0 ≤ arctan (binary64.val y / binary64.val x) := Real.arctan_nonneg.2 (div_nonneg_of_nonpos cy.le cx.le)
        rw [abs_of_nonneg hq] at ap
        generalize arctan (binary64.val y / binary64.val x) = v at *
        have s := Ap.sub ap (ap_pi md) (S := π - v) (B := π - v) (e := 22 * (π - v)) (by rw [abs_of_nonpos (by linarith [Real.pi_pos])]; linarith) le_rfl
          (by clear ea ap; norm_num at *; linarith) (by clear ea ap; norm_num at *; linarith)
        refine ⟨s.fin, ?_⟩
        have := s.err
        rw [abs_of_nonpos (a := v - π) (by linarith [Real.pi_pos])]
        linarith
    · rw [if_neg cx]
      rw [CC.hlt_finite binary64 hx val_zero64.1, val_zero64.2, not_lt] at cx
      rw [arg_re_pos (lt_of_le_of_ne cx (Ne.symm c))]
      refine ⟨fa, le_trans ea ?_⟩
      have := mul_le_mul_of_nonneg_left (mul_le_mul_of_nonneg_right (show (20 : ℝ) ≤ 22 by norm_num) (abs_nonneg (arctan (binary64.val y / binary64.val x)))) hu.le
      linarith

example : binary64.Finite 0x8000000000000001 ∧ binary64.Finite 0xC08F400000000000 ∧ ¬ (binary64.val 0xC08F400000000000 = 0 ∧ binary64.val 0x8000000000000001 = 0) := by
  refine ⟨by decide +kernel, by decide +kernel, fun h => ?_⟩
  have := (binary64.val_eq_zero_iff _).1 h.1
  revert this; decide +kernel

/-- **C71.** Double `atan2` when an argument is a NaN: a NaN. -/
theorem C71_nan (fused : Bool) (md : Mode) {x y : ℕ} (h : binary64.IsNaN x ∨ binary64.IsNaN y) : binary64.IsNaN (CC.atan2Double fused md y x) := by
  have h' : binary64.nanB y = true ∨ binary64.nanB x = true := h.symm.imp nan_test nan_test
  unfold CC.atan2Double
  dsimp only
  rw [if_pos (by rw [CC.isnan_eq, CC.isnan_eq]; rcases h' with h | h <;> rw [h] <;> simp), hadd_qnan md h']
  exact qnan_nan

example : binary64.IsNaN 0x7FF8000000000000 := by decide +kernel

/-- **C71.** Double `atan2` when both arguments are zeros or infinities: the values prescribed by the C standard (annex F.10.1.4).  For the two cases with `3π/4` the result
is stated in round-to-nearest. -/
theorem C71_zero_inf (fused : Bool) (md : Mode) :
    CC.atan2Double fused md 0 0 = 0 ∧ CC.atan2Double fused md 0x8000000000000000 0 = 0x8000000000000000 ∧
      CC.atan2Double fused md 0 0x8000000000000000 = 0x400921FB54442D18 ∧ CC.atan2Double fused md 0x8000000000000000 0x8000000000000000 = 0xC00921FB54442D18 ∧
      CC.atan2Double fused md 0x7FF0000000000000 0x7FF0000000000000 = 0x3FE921FB54442D18 ∧ CC.atan2Double fused md 0xFFF0000000000000 0x7FF0000000000000 = 0xBFE921FB54442D18 ∧
      CC.atan2Double fused .nearest 0x7FF0000000000000 0xFFF0000000000000 = 0x4002D97C7F3321D2 ∧ CC.atan2Double fused .nearest 0xFFF0000000000000 0xFFF0000000000000 = 0xC002D97C7F3321D2 := by
  cases fused <;> cases md <;> decide +kernel

/-- **C71.** Double `atan2` of a finite `y` and an infinite `x`: `±0` for `+∞`, `±π` for `-∞`, with the sign of `y` (zeros included). -/
theorem C71_x_inf (fused : Bool) (md : Mode) {y : ℕ} (hy : binary64.Finite y) :
    CC.atan2Double fused md y 0x7FF0000000000000 = (if binary64.sgn y then 0x8000000000000000 else 0) ∧
      CC.atan2Double fused md y 0xFFF0000000000000 = (if binary64.sgn y then 0xC00921FB54442D18 else 0x400921FB54442D18) := by
  obtain ⟨ny, iy⟩ := not_nan_inf hy
  have a1 : CC.isnan binary64 0x7FF0000000000000 = false := by decide +kernel
  have a2 : CC.isinf binary64 0x7FF0000000000000 = true := by decide +kernel
  have a3 : binary64.hgt 0x7FF0000000000000 0 = true := by decide +kernel
  have b1 : CC.isnan binary64 0xFFF0000000000000 = false := by decide +kernel
  have b2 : CC.isinf binary64 0xFFF0000000000000 = true := by decide +kernel
  have b3 : binary64.hgt 0xFFF0000000000000 0 = false := by decide +kernel
  have b4 : binary64.hneg 0x400921FB54442D18 = 0xC00921FB54442D18 := by decide +kernel
  unfold CC.atan2Double
  dsimp only
  rw [ny, iy, a1, a2, a3, b1, b2, b3, b4, FPBits.isNeg_eq _ hy.valid]
  simp only [Bool.false_eq_true, Bool.or_false, if_false, if_true]
  rcases lt_trichotomy (binary64.val y) 0 with h | h | h
  · have h1 : ¬ binary64.hgt y 0 = true := by rw [hgt_finite' hy val_zero64.1, val_zero64.2]; linarith
    have h2 : binary64.hlt y 0 = true := by rw [CC.hlt_finite binary64 hy val_zero64.1, val_zero64.2]; exact h
    rw [if_neg h1, if_neg h1, if_pos h2, if_pos h2, sgn_of_neg _ h]; simp
  · have h1 : ¬ binary64.hgt y 0 = true := by rw [hgt_finite' hy val_zero64.1, val_zero64.2]; linarith
    have h2 : ¬ binary64.hlt y 0 = true := by rw [CC.hlt_finite binary64 hy val_zero64.1, val_zero64.2]; linarith
    rw [if_neg h1, if_neg h1, if_neg h2, if_neg h2]
    refine ⟨?_, rfl⟩
    rcases zero_cases hy h with rfl | rfl <;> decide +kernel
  · have h1 : binary64.hgt y 0 = true := by rw [hgt_finite' hy val_zero64.1, val_zero64.2]; exact h
    rw [if_pos h1, if_pos h1, sgn_of_pos _ h]; simp

example : binary64.Finite 0x8000000000000000 := by decide +kernel

/-- **C71.** Double `atan2` of an infinite `y` and a finite `x`: the double nearest to `±π/2`. -/
theorem C71_y_inf (fused : Bool) (md : Mode) {x : ℕ} (hx : binary64.Finite x) :
    CC.atan2Double fused md 0x7FF0000000000000 x = 0x3FF921FB54442D18 ∧ CC.atan2Double fused md 0xFFF0000000000000 x = 0xBFF921FB54442D18 := by
  obtain ⟨nx, ix⟩ := not_nan_inf hx
  have a1 : CC.isnan binary64 0x7FF0000000000000 = false := by decide +kernel
  have a2 : CC.isinf binary64 0x7FF0000000000000 = true := by decide +kernel
  have a3 : FPBits.isNeg binary64 0x7FF0000000000000 = false := by decide +kernel
  have b1 : CC.isnan binary64 0xFFF0000000000000 = false := by decide +kernel
  have b2 : CC.isinf binary64 0xFFF0000000000000 = true := by decide +kernel
  have b3 : FPBits.isNeg binary64 0xFFF0000000000000 = true := by decide +kernel
  have b4 : binary64.hneg 0x3FF921FB54442D18 = 0xBFF921FB54442D18 := by decide +kernel
  unfold CC.atan2Double
  dsimp only
  rw [nx, ix, a1, a2, a3, b1, b2, b3, pi_div_two, b4]
  simp

/-- a zero divided by a non-zero finite number -/
theorem zero_div_eq (md : Mode) {x y : ℕ} (hx : binary64.Finite x) (hy : binary64.Finite y) (h0 : binary64.val x ≠ 0) (hz : binary64.val y = 0) :
    binary64.hdiv md y x = if xor (binary64.sgn y) (binary64.sgn x) then 0x8000000000000000 else 0 := by
  have R := binary64.hdiv_spec md hy hx h0
  rw [hz, zero_div] at R
  obtain ⟨f1, v1⟩ := RoundsTo.exact binary64 val_zero64.1 val_zero64.2 R
  have s := R.sign
  rw [if_pos rfl] at s
  rw [← s]
  rcases zero_cases f1 v1 with h | h <;> rw [h] <;> decide +kernel

/-- what `atan2` computes for a zero `y` and a finite non-zero `x` -/
theorem atan2_zero (fused : Bool) (md : Mode) {x y : ℕ} (hx : binary64.Finite x) (hy : binary64.Finite y) (h0 : binary64.val x ≠ 0) (hz : binary64.val y = 0) :
    CC.atan2Double fused md y x = if binary64.hlt x 0 then 0x400921FB54442D18 else if xor (binary64.sgn y) (binary64.sgn x) then 0x8000000000000000 else 0 := by
  obtain ⟨nx, ix⟩ := not_nan_inf hx
  obtain ⟨ny, iy⟩ := not_nan_inf hy
  obtain ⟨s1, s2, -⟩ := C70_atan_special fused md
  unfold CC.atan2Double
  dsimp only
  rw [nx, ny, ix, iy]
  simp only [Bool.false_eq_true, Bool.or_false, if_false]
  rw [if_neg (by rw [CC.heq_finite binary64 hx val_zero64.1, val_zero64.2]; exact h0), zero_div_eq md hx hy h0 hz,
    if_pos (c := binary64.hge y 0 = true) (by rw [hge_finite' hy val_zero64.1, val_zero64.2, hz])]
  have p1 : binary64.hadd md 0 0x400921FB54442D18 = 0x400921FB54442D18 := by cases md <;> decide +kernel
  have p2 : binary64.hadd md 0x8000000000000000 0x400921FB54442D18 = 0x400921FB54442D18 := by cases md <;> decide +kernel
  cases xor (binary64.sgn y) (binary64.sgn x)
  · simp only [Bool.false_eq_true, if_false]; rw [s1, p1]
  · simp only [if_true]; rw [s2, p2]

/-- **C71.** Double `atan2(±0, x)`: for `x > 0` the zero `y` itself; for `x < 0` and `y = +0` the double nearest to π.  The case `y = -0`, `x < 0` is wrong, see
`C71_negative_zero_wrong`. -/
theorem C71_y_zero_partial (fused : Bool) (md : Mode) {x : ℕ} (hx : binary64.Finite x) :
    (0 < binary64.val x → CC.atan2Double fused md 0 x = 0 ∧ CC.atan2Double fused md 0x8000000000000000 x = 0x8000000000000000) ∧
      (binary64.val x < 0 → CC.atan2Double fused md 0 x = 0x400921FB54442D18) := by
  have fz : binary64.Finite 0x8000000000000000 := by decide +kernel
  have vz : binary64.val 0x8000000000000000 = 0 := by rw [binary64.val_eq_zero_iff]; decide
  have g1 : binary64.sgn 0x8000000000000000 = true := by decide +kernel
  have g0 : binary64.sgn 0 = false := by decide +kernel
  refine ⟨fun h => ?_, fun h => ?_⟩
  · have h1 : ¬ binary64.hlt x 0 = true := by rw [CC.hlt_finite binary64 hx val_zero64.1, val_zero64.2]; linarith
    rw [atan2_zero fused md hx val_zero64.1 h.ne' val_zero64.2, atan2_zero fused md hx fz h.ne' vz, if_neg h1, if_neg h1, sgn_of_pos _ h, g0, g1]
    exact ⟨rfl, rfl⟩
  · rw [atan2_zero fused md hx val_zero64.1 h.ne val_zero64.2, if_pos (by rw [CC.hlt_finite binary64 hx val_zero64.1, val_zero64.2]; exact h)]

/-- **C71.** Double `atan2(-0, x)` for every finite `x < 0`: the code returns `+π`, where IEEE 754 and the C standard require `-π`. -/
theorem C71_negative_zero_wrong (fused : Bool) (md : Mode) {x : ℕ} (hx : binary64.Finite x) (h : binary64.val x < 0) :
    CC.atan2Double fused md 0x8000000000000000 x = 0x400921FB54442D18 := by
  have fz : binary64.Finite 0x8000000000000000 := by decide +kernel
  have vz : binary64.val 0x8000000000000000 = 0 := by rw [binary64.val_eq_zero_iff]; decide
  rw [atan2_zero fused md hx fz h.ne vz, if_pos (by rw [CC.hlt_finite binary64 hx val_zero64.1, val_zero64.2]; exact h)]

example : binary64.Finite 0xBFF0000000000000 ∧ binary64.val 0xBFF0000000000000 < 0 ∧ CC.atan2Double true .nearest 0x8000000000000000 0xBFF0000000000000 = 0x400921FB54442D18 := by
  refine ⟨by decide +kernel, ?_, by decide +kernel⟩
  rw [lit64 true 4503599627370496 52 (by decide +kernel) (by decide +kernel) (by decide +kernel) (by decide +kernel)]; norm_num [sg]

end Verif
