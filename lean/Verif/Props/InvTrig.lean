import Verif.Lemmas.Asin11

/-!
# Properties of double acos, asin (C69), atan (C70) and atan2 (C71)

The rounding unit is `2^-53` in round-to-nearest and `2^-52` in the directed modes.  `0x400921FB54442D18` is the double nearest to pi.
-/

namespace Verif
open Fmt Real

theorem eta_def : eta = (2 : ℝ) ^ (-1074 : ℤ) := rfl

theorem nan_test {x : ℕ} (hx : binary64.IsNaN x) : binary64.nanB x = true := (binary64.nanB_iff hx.1).2 hx
theorem qnan_nan : binary64.IsNaN binary64.qnan := by decide +kernel
theorem hadd_qnan (md : Mode) {x y : ℕ} (h : binary64.nanB x = true ∨ binary64.nanB y = true) : binary64.hadd md x y = binary64.qnan := by
  unfold Fmt.hadd; rw [if_pos (by rcases h with h | h <;> rw [h] <;> simp)]
theorem nanB_hneg' (x : ℕ) (h : binary64.nanB x = true) : binary64.nanB (binary64.hneg x) = true := by
  unfold Fmt.nanB at *; rw [mag_hneg]; exact h
theorem inf_cases {x : ℕ} (hx : binary64.IsInf x) : x = 0x7FF0000000000000 ∨ x = 0xFFF0000000000000 := by
  obtain ⟨h1, h2, h3⟩ := hx
  unfold Fmt.Valid at h1
  unfold Fmt.bexp Fmt.mag at h2
  unfold Fmt.frac at h3
  have e1 : binary64.E = 11 := rfl
  have e2 : binary64.F = 52 := rfl
  simp only [e1, e2] at h1 h2 h3
  omega

theorem zero_cases {x : ℕ} (hx : binary64.Finite x) (h : binary64.val x = 0) : x = 0 ∨ x = 0x8000000000000000 := by
  have h1 := hx.valid
  have h2 := (binary64.val_eq_zero_iff x).1 h
  unfold Fmt.Valid at h1
  unfold Fmt.mag at h2
  have e1 : binary64.E = 11 := rfl
  have e2 : binary64.F = 52 := rfl
  simp only [e1, e2] at h1 h2
  omega

/-- **C69.** Double `acos` of every double in `[-1, 1]` is finite, not negative, and within 2.81 rounding units of the arccosine, in every rounding mode, with or without
fused multiply-add. -/
theorem C69_acos (fused : Bool) (md : Mode) {x : ℕ} (hx : binary64.Finite x) (h : |binary64.val x| ≤ 1) :
    binary64.Finite (CC.acosDouble fused md x) ∧ 0 ≤ binary64.val (CC.acosDouble fused md x) ∧
      |binary64.val (CC.acosDouble fused md x) - arccos (binary64.val x)| ≤ 2.81 * (if md = .nearest then 1 / 2 ^ 53 else 1 / 2 ^ 52) * arccos (binary64.val x) := by
  obtain ⟨h1, h2⟩ := acosDouble_spec fused md hx h
  have h0 := Real.arccos_nonneg (binary64.val x)
  refine ⟨h1, ?_, ?_⟩
  · have a := (abs_le.1 h2).1
    have b : ru md * (281 / 100 * arccos (binary64.val x)) ≤ 1 / 10 * (281 / 100 * arccos (binary64.val x)) := mul_le_mul_of_nonneg_right (le_trans (ru_le md) (by norm_num)) (by positivity)
    linarith
  · have e : (if md = .nearest then 1 / 2 ^ 53 else 1 / 2 ^ 52 : ℝ) = ru md := rfl
    rw [e]
    refine le_trans h2 (le_of_eq ?_)
    norm_num; ring

example : binary64.Finite 0xBFEFFFFFFFFFFFFF ∧ |binary64.val 0xBFEFFFFFFFFFFFFF| ≤ 1 := by
  refine ⟨by decide +kernel, ?_⟩
  rw [lit64 true 9007199254740991 53 (by decide +kernel) (by decide +kernel) (by decide +kernel) (by decide +kernel)]; norm_num [sg, abs_le]

/-- **C69.** Double `acos`: NaN for a NaN, an infinity or a number beyond `[-1, 1]`; exactly `+0` at `1`, the double nearest to pi at `-1`, the double nearest to `pi/2` at both
zeros. -/
theorem C69_acos_special (fused : Bool) (md : Mode) :
    (∀ x, binary64.IsNaN x → binary64.IsNaN (CC.acosDouble fused md x)) ∧ (∀ x, binary64.IsInf x → binary64.IsNaN (CC.acosDouble fused md x)) ∧
      (∀ x, binary64.Finite x → 1 < |binary64.val x| → binary64.IsNaN (CC.acosDouble fused md x)) ∧
      CC.acosDouble fused md 0x3FF0000000000000 = 0 ∧ CC.acosDouble fused md 0xBFF0000000000000 = 0x400921FB54442D18 ∧
      CC.acosDouble fused md 0 = 0x3FF921FB54442D18 ∧ CC.acosDouble fused md 0x8000000000000000 = 0x3FF921FB54442D18 := by
  have hq : binary64.nanB (FPBits.quietNaN binary64 false 0) = true := by decide +kernel
  refine ⟨fun x hx => ?_, fun x hx => ?_, fun x hx h => ?_, ?_, ?_, ?_, ?_⟩
  · unfold CC.acosDouble
    rw [if_pos (by rw [FPBits.isNan_eq]; exact nan_test hx)]
    exact hx
  · have h1 : binary64.nanB x = false := by
      by_contra hc
      have := (binary64.nanB_iff hx.1).1 (by simpa using hc)
      exact this.2.2 hx.2.2
    unfold CC.acosDouble
    rw [if_neg (by rw [FPBits.isNan_eq, h1]; simp), if_pos (by rw [FPBits.isInf_eq]; exact (binary64.infB_iff hx.1).2 hx), hadd_qnan md (Or.inr hq)]
    exact qnan_nan
  · obtain ⟨fa, va, -⟩ := C03_fabs_value binary64 hx
    have f1 : binary64.Finite 0x3FF0000000000000 := by decide +kernel
    unfold CC.acosDouble
    dsimp only
    rw [FPBits.isNan_eq, FPBits.isInf_eq, (binary64.finite_B hx).1, (binary64.finite_B hx).2]
    simp only [Bool.false_eq_true, if_false]
    rw [if_pos (by rw [hgt_finite' fa f1, va, val_one64]; exact h), hadd_qnan md (Or.inr hq)]
    exact qnan_nan
  · cases fused <;> cases md <;> decide +kernel
  · cases fused <;> cases md <;> decide +kernel
  · cases fused <;> cases md <;> decide +kernel
  · cases fused <;> cases md <;> decide +kernel

/-- **C69.** Double `asin` of every double in `[-1, 1]` is finite and close to the arcsine: within 1.55 rounding units up to magnitude 1/2 (plus three least subnormals), 8 rounding
units above 1/2, and 14 below -1/2.  See `C69_asin_not_odd` for the asymmetry. -/
theorem C69_asin (fused : Bool) (md : Mode) {x : ℕ} (hx : binary64.Finite x) (h : |binary64.val x| ≤ 1) :
    binary64.Finite (CC.asinDouble fused md x) ∧
      |binary64.val (CC.asinDouble fused md x) - arcsin (binary64.val x)| ≤
        (if |binary64.val x| ≤ 1 / 2 then 1.55 else if 0 < binary64.val x then 8 else 14) * (if md = .nearest then 1 / 2 ^ 53 else 1 / 2 ^ 52) * |arcsin (binary64.val x)| +
          (if |binary64.val x| ≤ 1 / 2 then 3 * (2 : ℝ) ^ (-1074 : ℤ) else 0) := by
  obtain ⟨h1, h2, h3, h4⟩ := asinDouble_spec fused md hx h
  refine ⟨h1, ?_⟩
  have e : (if md = .nearest then 1 / 2 ^ 53 else 1 / 2 ^ 52 : ℝ) = ru md := rfl
  rw [e, ← eta_def]
  by_cases c : |binary64.val x| ≤ 1 / 2
  · rw [if_pos c, if_pos c]
    refine le_trans (h2 c) (le_of_eq ?_)
    norm_num; ring
  · rw [if_neg c, if_neg c, add_zero]
    rcases lt_abs.1 (not_le.1 c) with c1 | c1
    · rw [if_pos (by linarith)]
      refine le_trans (h3 c1) (le_of_eq (by ring))
    · rw [if_neg (by linarith)]
      refine le_trans (h4 (by linarith)) (le_of_eq (by ring))

example : binary64.Finite 0xBFE0000000000001 ∧ binary64.val 0xBFE0000000000001 < -(1 / 2) ∧ |binary64.val 0xBFE0000000000001| ≤ 1 := by
  refine ⟨by decide +kernel, ?_⟩
  rw [lit64 true 4503599627370497 53 (by decide +kernel) (by decide +kernel) (by decide +kernel) (by decide +kernel)]; norm_num [sg, abs_le]

/-- **C69.** Double `asin`: zeros are returned as they are, `±1` gives the double nearest to `±pi/2`, and a NaN, an infinity or a number beyond `[-1, 1]` gives a NaN. -/
theorem C69_asin_special (fused : Bool) (md : Mode) :
    CC.asinDouble fused md 0 = 0 ∧ CC.asinDouble fused md 0x8000000000000000 = 0x8000000000000000 ∧
      CC.asinDouble fused md 0x3FF0000000000000 = 0x3FF921FB54442D18 ∧ CC.asinDouble fused md 0xBFF0000000000000 = 0xBFF921FB54442D18 ∧
      (∀ x, binary64.IsNaN x → binary64.IsNaN (CC.asinDouble fused md x)) ∧ (∀ x, binary64.IsInf x → binary64.IsNaN (CC.asinDouble fused md x)) ∧
      (∀ x, binary64.Finite x → 1 < |binary64.val x| → binary64.IsNaN (CC.asinDouble fused md x)) := by
  obtain ⟨a1, a2, a3, -⟩ := C69_acos_special fused md
  refine ⟨?_, ?_, ?_, ?_, fun x hx => ?_, fun x hx => ?_, fun x hx h => ?_⟩
  · cases fused <;> cases md <;> decide +kernel
  · cases fused <;> cases md <;> decide +kernel
  · cases fused <;> cases md <;> decide +kernel
  · cases fused <;> cases md <;> decide +kernel
  · have h1 := nan_test hx
    have h2 : binary64.nanB (CC.abs binary64 x) = true := nan_test (C03_fabs_nan binary64 hx).1
    unfold CC.asinDouble
    rw [if_neg (by unfold Fmt.heq; rw [h1]; simp), if_neg (by unfold Fmt.hle; rw [h2]; simp), Fmt.hsub, hadd_qnan md (Or.inr (nanB_hneg' _ (nan_test (a1 x hx))))]
    exact qnan_nan
  · rcases inf_cases hx with rfl | rfl <;> · cases fused <;> cases md <;> decide +kernel
  · obtain ⟨fa, va, -⟩ := C03_fabs_value binary64 hx
    unfold CC.asinDouble
    rw [if_neg (by rw [CC.heq_finite binary64 hx val_zero64.1, val_zero64.2]; intro e; rw [e, abs_zero] at h; linarith),
      if_neg (by rw [CC.hle_finite binary64 fa fval_half64.1, va, fval_half64.2]; intro e; linarith), Fmt.hsub, hadd_qnan md (Or.inr (nanB_hneg' _ (nan_test (a3 x hx h))))]
    exact qnan_nan

/-- **C69.** Double `asin` is not an odd function: for this double (about 0.5034) the results for `x` and `-x` differ by two units in the last place. -/
theorem C69_asin_not_odd : CC.asinDouble true .nearest 4602709247238204151 = 4602926553093847426 ∧
    CC.asinDouble true .nearest (4602709247238204151 + 2 ^ 63) = 4602926553093847424 + 2 ^ 63 := by decide +kernel

/-- **C70.** Double `atan` of every finite double is finite and within 18 rounding units (plus three least subnormals) of the arctangent, in every rounding mode, with or without
fused multiply-add. -/
theorem C70_atan (fused : Bool) (md : Mode) {x : ℕ} (hx : binary64.Finite x) :
    binary64.Finite (CC.atanDouble fused md x) ∧
      |binary64.val (CC.atanDouble fused md x) - arctan (binary64.val x)| ≤
        18 * (if md = .nearest then 1 / 2 ^ 53 else 1 / 2 ^ 52) * |arctan (binary64.val x)| + 3 * (2 : ℝ) ^ (-1074 : ℤ) := by
  obtain ⟨h1, h2⟩ := atanDouble_spec fused md hx
  refine ⟨h1, ?_⟩
  have e : (if md = .nearest then 1 / 2 ^ 53 else 1 / 2 ^ 52 : ℝ) = ru md := rfl
  rw [e, ← eta_def]
  refine le_trans h2 (le_of_eq (by ring))

example : binary64.Finite 0xC01921FB54442D18 := by decide +kernel

/-- **C70.** Double `atan`: zeros are returned as they are, the infinities give the doubles nearest to `±pi/2`, a NaN gives a NaN. -/
theorem C70_atan_special (fused : Bool) (md : Mode) :
    CC.atanDouble fused md 0 = 0 ∧ CC.atanDouble fused md 0x8000000000000000 = 0x8000000000000000 ∧
      CC.atanDouble fused md 0x7FF0000000000000 = 0x3FF921FB54442D18 ∧ CC.atanDouble fused md 0xFFF0000000000000 = 0xBFF921FB54442D18 ∧
      ∀ x, binary64.IsNaN x → CC.atanDouble fused md x = x := by
  refine ⟨?_, ?_, (atanDouble_inf fused md).1, (atanDouble_inf fused md).2, fun x hx => ?_⟩
  · cases fused <;> cases md <;> decide +kernel
  · cases fused <;> cases md <;> decide +kernel
  · unfold CC.atanDouble CC.atanStep
    rw [if_pos (by rw [CC.isnan_eq]; exact nan_test hx)]

example : binary64.IsNaN 0x7FF8000000000001 := by decide +kernel

/-- **C70.** The recursion of `atan_impl` has depth two: whatever function stands for a third level, the result is the same. -/
theorem C70_atan_depth (fused : Bool) (md : Mode) (g : ℕ → ℕ) {x : ℕ} (hx : binary64.Valid x) :
    CC.atanStep fused md (CC.atanStep fused md g) x = CC.atanDouble fused md x := by
  unfold CC.atanDouble
  by_cases hf : binary64.Finite x
  · obtain ⟨fa, va, -⟩ := C03_fabs_value binary64 hf
    have f1 : binary64.Finite 0x3FF0000000000000 := by decide +kernel
    rw [CC.atanStep, CC.atanStep]
    dsimp only
    by_cases c : binary64.hgt (CC.abs binary64 x) 0x3FF0000000000000 = true
    · have c' := c
      rw [hgt_finite' fa f1, val_one64] at c'
      obtain ⟨fr, r0, r1, -⟩ := atan_recip md fa c'
      rw [(atanStep_le_one fused md g fr (by rw [abs_of_nonneg r0]; exact r1)).1 (fun y => y)]
    · rw [if_neg c, if_neg c]
  · by_cases hn : binary64.IsNaN x
    · have : CC.isnan binary64 x = true := by rw [CC.isnan_eq]; exact nan_test hn
      rw [CC.atanStep, CC.atanStep, if_pos this, if_pos this]
    · have : binary64.IsInf x := by
        unfold Fmt.Finite Fmt.IsNaN at *; unfold Fmt.IsInf; tauto
      have hi : CC.isinf binary64 (CC.abs binary64 x) = true := by rcases inf_cases this with rfl | rfl <;> decide +kernel
      rw [CC.atanStep, CC.atanStep]
      dsimp only
      rw [if_pos hi, if_pos hi]

example : binary64.Valid 0x4000000000000000 ∧ CC.atanDouble true .nearest 0x4000000000000000 = 0x3FF1B6E192EBBE44 := by decide +kernel

/-- **C70.** Double `atan` is not an odd function: for this double (about 0.5785) the results for `x` and `-x` differ by two units in the last place. -/
theorem C70_atan_not_odd : CC.atanDouble true .nearest 4603386281057310227 = 4602899438326195834 ∧
    CC.atanDouble true .nearest (4603386281057310227 + 2 ^ 63) = 4602899438326195832 + 2 ^ 63 := by decide +kernel

end Verif
