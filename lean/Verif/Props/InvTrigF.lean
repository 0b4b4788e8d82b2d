import Verif.Lemmas.AsinF4
import Verif.Props.Atan2

/-!
# Properties of float acos, asin, atan and atan2 (C96)

The rounding unit is `2^-24` in round-to-nearest and `2^-23` in the directed modes.  `0x40490FDB` is the float nearest to pi.
-/

namespace Verif
open Fmt Real

theorem nan_testF {x : ℕ} (hx : binary32.IsNaN x) : binary32.nanB x = true := (binary32.nanB_iff hx.1).2 hx
theorem qnan_nanF : binary32.IsNaN binary32.qnan := by decide +kernel
theorem hadd_qnanF (md : Mode) {x y : ℕ} (h : binary32.nanB x = true ∨ binary32.nanB y = true) : binary32.hadd md x y = binary32.qnan := by
  unfold Fmt.hadd; rw [if_pos (by rcases h with h | h <;> rw [h] <;> simp)]
theorem nanB_hnegF (x : ℕ) (h : binary32.nanB x = true) : binary32.nanB (binary32.hneg x) = true := by
  unfold Fmt.nanB at *; rw [mag_hneg]; exact h
theorem not_nan_infF {x : ℕ} (hx : binary32.Finite x) : CC.isnan binary32 x = false ∧ CC.isinf binary32 x = false := by
  rw [CC.isnan_eq, CC.isinf_eq]; exact binary32.finite_B hx
theorem inf_casesF {x : ℕ} (hx : binary32.IsInf x) : x = 0x7F800000 ∨ x = 0xFF800000 := by
  obtain ⟨h1, h2, h3⟩ := hx
  unfold Fmt.Valid at h1
  unfold Fmt.bexp Fmt.mag at h2
  unfold Fmt.frac at h3
  have e1 : binary32.E = 8 := rfl
  have e2 : binary32.F = 23 := rfl
  simp only [e1, e2] at h1 h2 h3
  omega
theorem zero_casesF {x : ℕ} (hx : binary32.Finite x) (h : binary32.val x = 0) : x = 0 ∨ x = 0x80000000 := by
  have h1 := hx.valid
  have h2 := (binary32.val_eq_zero_iff x).1 h
  unfold Fmt.Valid at h1
  unfold Fmt.mag at h2
  have e1 : binary32.E = 8 := rfl
  have e2 : binary32.F = 23 := rfl
  simp only [e1, e2] at h1 h2
  omega
theorem hge32f {x y : ℕ} (hx : binary32.Finite x) (hy : binary32.Finite y) : binary32.hge x y = true ↔ binary32.val y ≤ binary32.val x :=
  CC.hle_finite binary32 hy hx

/-- **C96.** Float `acos` of every float in `[-1, 1]` is finite, not negative, and within 3 rounding units of the arccosine, in every rounding mode, with or without
fused multiply-add. -/
theorem C96_acosf (fused : Bool) (md : Mode) {x : ℕ} (hx : binary32.Finite x) (h : |binary32.val x| ≤ 1) :
    binary32.Finite (CC.acosFloat fused md x) ∧ 0 ≤ binary32.val (CC.acosFloat fused md x) ∧
      |binary32.val (CC.acosFloat fused md x) - arccos (binary32.val x)| ≤ 3 * (if md = .nearest then 1 / 2 ^ 24 else 1 / 2 ^ 23) * arccos (binary32.val x) := by
  obtain ⟨h1, h2⟩ := acosFloat_spec fused md hx h
  have h0 := Real.arccos_nonneg (binary32.val x)
  refine ⟨h1, ?_, ?_⟩
  · have a := (abs_le.1 h2).1
    have b : ruf md * (3 * arccos (binary32.val x)) ≤ 1 / 10 * (3 * arccos (binary32.val x)) := mul_le_mul_of_nonneg_right (le_trans (ruf_le md) (by norm_num)) (by positivity)
    linarith
  · have e : (if md = .nearest then 1 / 2 ^ 24 else 1 / 2 ^ 23 : ℝ) = ruf md := rfl
    rw [e]
    refine le_trans h2 (le_of_eq ?_)
    norm_num; ring

example : binary32.Finite 0xBF7FFFFF ∧ |binary32.val 0xBF7FFFFF| ≤ 1 := by
  refine ⟨by decide +kernel, ?_⟩
  rw [lit32 true 16777215 24 (by decide +kernel) (by decide +kernel) (by decide +kernel) (by decide +kernel)]; norm_num [sg, abs_le]

/-- **C96.** Float `acos`: NaN for a NaN, an infinity or a number beyond `[-1, 1]`; exactly `+0` at `1`, the float nearest to pi at `-1`, the float nearest to `pi/2` at both
zeros. -/
theorem C96_acosf_special (fused : Bool) (md : Mode) :
    (∀ x, binary32.IsNaN x → binary32.IsNaN (CC.acosFloat fused md x)) ∧ (∀ x, binary32.IsInf x → binary32.IsNaN (CC.acosFloat fused md x)) ∧
      (∀ x, binary32.Finite x → 1 < |binary32.val x| → binary32.IsNaN (CC.acosFloat fused md x)) ∧
      CC.acosFloat fused md 0x3F800000 = 0 ∧ CC.acosFloat fused md 0xBF800000 = 0x40490FDB ∧
      CC.acosFloat fused md 0 = 0x3FC90FDB ∧ CC.acosFloat fused md 0x80000000 = 0x3FC90FDB := by
  have hq : binary32.nanB (FPBits.quietNaN binary32 false 0) = true := by decide +kernel
  refine ⟨fun x hx => ?_, fun x hx => ?_, fun x hx h => ?_, ?_, ?_, ?_, ?_⟩
  · unfold CC.acosFloat
    rw [if_pos (by rw [FPBits.isNan_eq]; exact nan_testF hx)]
    exact hx
  · have h1 : binary32.nanB x = false := by
      by_contra hc
      have := (binary32.nanB_iff hx.1).1 (by simpa using hc)
      exact this.2.2 hx.2.2
    unfold CC.acosFloat
    rw [if_neg (by rw [FPBits.isNan_eq, h1]; simp), if_pos (by rw [FPBits.isInf_eq]; exact (binary32.infB_iff hx.1).2 hx), hadd_qnanF md (Or.inr hq)]
    exact qnan_nanF
  · obtain ⟨fa, va, -⟩ := C03_fabs_value binary32 hx
    have f1 : binary32.Finite 0x3F800000 := by decide +kernel
    unfold CC.acosFloat
    dsimp only
    rw [FPBits.isNan_eq, FPBits.isInf_eq, (binary32.finite_B hx).1, (binary32.finite_B hx).2]
    simp only [Bool.false_eq_true, if_false]
    rw [if_pos (by rw [hgt32f fa f1, va, fval_one32.2]; exact h), hadd_qnanF md (Or.inr hq)]
    exact qnan_nanF
  · cases fused <;> cases md <;> decide +kernel
  · cases fused <;> cases md <;> decide +kernel
  · cases fused <;> cases md <;> decide +kernel
  · cases fused <;> cases md <;> decide +kernel

/-- **C96.** Float `asin` of every float in `[-1, 1]` is finite and close to the arcsine: within 1.02 rounding units up to magnitude 1/2 (plus three least subnormals), 9 rounding
units above 1/2, and 15 below -1/2.  See `C96_asinf_not_odd` for the asymmetry. -/
theorem C96_asinf (fused : Bool) (md : Mode) {x : ℕ} (hx : binary32.Finite x) (h : |binary32.val x| ≤ 1) :
    binary32.Finite (CC.asinFloat fused md x) ∧
      |binary32.val (CC.asinFloat fused md x) - arcsin (binary32.val x)| ≤
        (if |binary32.val x| ≤ 1 / 2 then 1.02 else if 0 < binary32.val x then 9 else 15) * (if md = .nearest then 1 / 2 ^ 24 else 1 / 2 ^ 23) * |arcsin (binary32.val x)| +
          (if |binary32.val x| ≤ 1 / 2 then 3 * (2 : ℝ) ^ (-149 : ℤ) else 0) := by
  obtain ⟨h1, h2, h3, h4⟩ := asinFloat_spec fused md hx h
  refine ⟨h1, ?_⟩
  have e : (if md = .nearest then 1 / 2 ^ 24 else 1 / 2 ^ 23 : ℝ) = ruf md := rfl
  rw [e, ← etaf_eq]
  by_cases c : |binary32.val x| ≤ 1 / 2
  · rw [if_pos c, if_pos c]
    refine le_trans (h2 c) (le_of_eq ?_)
    norm_num; ring
  · rw [if_neg c, if_neg c, add_zero]
    rcases lt_abs.1 (not_le.1 c) with c1 | c1
    · rw [if_pos (by linarith)]
      refine le_trans (h3 c1) (le_of_eq (by ring))
    · rw [if_neg (by linarith)]
      refine le_trans (h4 (by linarith)) (le_of_eq (by ring))

example : binary32.Finite 0xBF000001 ∧ binary32.val 0xBF000001 < -(1 / 2) ∧ |binary32.val 0xBF000001| ≤ 1 := by
  refine ⟨by decide +kernel, ?_⟩
  rw [lit32 true 8388609 24 (by decide +kernel) (by decide +kernel) (by decide +kernel) (by decide +kernel)]; norm_num [sg, abs_le]

/-- **C96.** Float `asin`: zeros are returned as they are, `±1` gives the float nearest to `±pi/2`, and a NaN, an infinity or a number beyond `[-1, 1]` gives a NaN. -/
theorem C96_asinf_special (fused : Bool) (md : Mode) :
    CC.asinFloat fused md 0 = 0 ∧ CC.asinFloat fused md 0x80000000 = 0x80000000 ∧
      CC.asinFloat fused md 0x3F800000 = 0x3FC90FDB ∧ CC.asinFloat fused md 0xBF800000 = 0xBFC90FDB ∧
      (∀ x, binary32.IsNaN x → binary32.IsNaN (CC.asinFloat fused md x)) ∧ (∀ x, binary32.IsInf x → binary32.IsNaN (CC.asinFloat fused md x)) ∧
      (∀ x, binary32.Finite x → 1 < |binary32.val x| → binary32.IsNaN (CC.asinFloat fused md x)) := by
  obtain ⟨a1, a2, a3, -⟩ := C96_acosf_special fused md
  refine ⟨?_, ?_, ?_, ?_, fun x hx => ?_, fun x hx => ?_, fun x hx h => ?_⟩
  · cases fused <;> cases md <;> decide +kernel
  · cases fused <;> cases md <;> decide +kernel
  · cases fused <;> cases md <;> decide +kernel
  · cases fused <;> cases md <;> decide +kernel
  · have h1 := nan_testF hx
    have h2 : binary32.nanB (CC.abs binary32 x) = true := nan_testF (C03_fabs_nan binary32 hx).1
    unfold CC.asinFloat
    rw [if_neg (by unfold Fmt.heq; rw [h1]; simp), if_neg (by unfold Fmt.hle; rw [h2]; simp), Fmt.hsub, hadd_qnanF md (Or.inr (nanB_hnegF _ (nan_testF (a1 x hx))))]
    exact qnan_nanF
  · rcases inf_casesF hx with rfl | rfl <;> · cases fused <;> cases md <;> decide +kernel
  · obtain ⟨fa, va, -⟩ := C03_fabs_value binary32 hx
    unfold CC.asinFloat
    rw [if_neg (by rw [CC.heq_finite binary32 hx fval_zero32.1, fval_zero32.2]; intro e; rw [e, abs_zero] at h; linarith),
      if_neg (by rw [CC.hle_finite binary32 fa fval_half32.1, va, fval_half32.2]; intro e; linarith), Fmt.hsub, hadd_qnanF md (Or.inr (nanB_hnegF _ (nan_testF (a3 x hx h))))]
    exact qnan_nanF

/-- **C96.** Float `asin` is not an odd function: for this float (about 0.9809) the results for `x` and `-x` differ by a unit in the last place. -/
theorem C96_asinf_not_odd : CC.asinFloat true .nearest 1065348414 = 1069940694 ∧
    CC.asinFloat true .nearest (1065348414 + 2 ^ 31) = 1069940695 + 2 ^ 31 := by decide +kernel

/-- **C96.** Float `atan` of every finite float is the correctly rounded value, in the current rounding mode, of a number within one part in `2^47` of the arctangent; a zero keeps
its sign.  Hence it is finite and within 1.001 rounding units of the arctangent (plus one least subnormal). -/
theorem C96_atanf (fused : Bool) (md : Mode) {x : ℕ} (hx : binary32.Finite x) :
    (∃ v : ℝ, |v - arctan (binary32.val x)| ≤ 1 / 2 ^ 47 * |arctan (binary32.val x)| ∧ binary32.RoundsTo md (binary32.sgn x) v (CC.atanFloat fused md x)) ∧
      binary32.Finite (CC.atanFloat fused md x) ∧
      |binary32.val (CC.atanFloat fused md x) - arctan (binary32.val x)| ≤
        1.001 * (if md = .nearest then 1 / 2 ^ 24 else 1 / 2 ^ 23) * |arctan (binary32.val x)| + (2 : ℝ) ^ (-149 : ℤ) := by
  refine ⟨?_, ?_⟩
  · by_cases h : binary32.val x = 0
    · refine ⟨0, by rw [h]; simp, ?_⟩
      have e : CC.atanFloat fused md x = x := by
        rcases zero_casesF hx h with rfl | rfl <;> · cases fused <;> cases md <;> decide +kernel
      have := binary32.roundsTo_self (m := md) hx
      rw [h] at this
      rw [e]
      exact this
    · obtain ⟨f1, e1⟩ := atanFloat_inner fused md hx h
      refine ⟨_, e1, RoundsTo.zs_irrel (CC.hcvt_spec binary32 binary64 md f1) ?_⟩
      intro e0
      rw [e0, zero_sub, abs_neg] at e1
      have h1 := lt_of_lt_of_le (show (0 : ℝ) < 1 / 2 * (2 : ℝ) ^ (-149 : ℤ) by positivity) (abs_arctan_ge_sub h)
      have : 1 / 2 ^ 47 * |arctan (binary32.val x)| ≤ 1 / 2 * |arctan (binary32.val x)| := mul_le_mul_of_nonneg_right (by norm_num) h1.le
      linarith
  · obtain ⟨h1, h2⟩ := atanFloat_spec fused md hx
    refine ⟨h1, ?_⟩
    have e : (if md = .nearest then 1 / 2 ^ 24 else 1 / 2 ^ 23 : ℝ) = ruf md := rfl
    rw [e, ← etaf_eq]
    refine le_trans h2 (le_of_eq ?_)
    norm_num; ring

example : binary32.Finite 0xC0490FDB ∧ CC.atanFloat true .nearest 0xC0490FDB = 3215039941 := by decide +kernel

/-- **C96.** Float `atan`: zeros are returned as they are, a NaN gives a NaN, and the infinities give the float neighbour of `±pi/2` selected by the rounding mode (double `atan`
ignores the mode there, see `C70_atan_special`). -/
theorem C96_atanf_special (fused : Bool) (md : Mode) :
    CC.atanFloat fused md 0 = 0 ∧ CC.atanFloat fused md 0x80000000 = 0x80000000 ∧
      CC.atanFloat fused md 0x7F800000 = (if md = .nearest ∨ md = .up then 0x3FC90FDB else 0x3FC90FDA) ∧
      CC.atanFloat fused md 0xFF800000 = (if md = .nearest ∨ md = .down then 0xBFC90FDB else 0xBFC90FDA) ∧
      ∀ x, binary32.IsNaN x → binary32.IsNaN (CC.atanFloat fused md x) := by
  refine ⟨?_, ?_, (atanFloat_inf fused md).1, (atanFloat_inf fused md).2, fun x hx => ?_⟩
  · cases fused <;> cases md <;> decide +kernel
  · cases fused <;> cases md <;> decide +kernel
  · unfold CC.atanFloat
    have h1 : binary64.hcvt binary32 md x = binary64.qnan := by unfold Fmt.hcvt; rw [if_pos (nan_testF hx)]
    rw [h1, (C70_atan_special fused md).2.2.2.2 _ qnan_nan]
    have h2 : binary32.hcvt binary64 md binary64.qnan = binary32.qnan := by unfold Fmt.hcvt; rw [if_pos (nan_test qnan_nan)]
    rw [h2]; exact qnan_nanF

example : binary32.IsNaN 0x7FC00001 := by decide +kernel

/-- **C96.** Float `atan2(y, x)` of every two finite floats, not both zero, is finite and within 5 rounding units (plus three least subnormals) of the angle of the point `(x, y)`,
in every rounding mode, with or without fused multiply-add, also when `y / x` overflows or underflows. -/
theorem C96_atan2f (fused : Bool) (md : Mode) {x y : ℕ} (hx : binary32.Finite x) (hy : binary32.Finite y) (h0 : ¬ (binary32.val x = 0 ∧ binary32.val y = 0)) :
    binary32.Finite (CC.atan2Float fused md y x) ∧
      |binary32.val (CC.atan2Float fused md y x) - Complex.arg ⟨binary32.val x, binary32.val y⟩| ≤
        5 * (if md = .nearest then 1 / 2 ^ 24 else 1 / 2 ^ 23) * |Complex.arg ⟨binary32.val x, binary32.val y⟩| + 3 * (2 : ℝ) ^ (-149 : ℤ) := by
  have e : (if md = .nearest then 1 / 2 ^ 24 else 1 / 2 ^ 23 : ℝ) = ruf md := rfl
  rw [e, ← etaf_eq]
  have hu := ruf_pos md
  have hu2 := ruf_le md
  have hu3 := ruf_ge md
  have hη := etaf_le
  have hη0 := etaf_pos
  have hpi1 := Real.pi_gt_d20
  have hpi2 := Real.pi_lt_d20
  obtain ⟨nx, ix⟩ := not_nan_infF hx
  obtain ⟨ny, iy⟩ := not_nan_infF hy
  unfold CC.atan2Float
  dsimp only
  rw [nx, ny, ix, iy]
  simp only [Bool.false_eq_true, Bool.or_false, if_false]
  by_cases c : binary32.heq x 0 = true
  · rw [if_pos c, pi_div_twoF]
    rw [CC.heq_finite binary32 hx fval_zero32.1, fval_zero32.2] at c
    rw [c]
    have hne : binary32.val y ≠ 0 := fun h => h0 ⟨c, h⟩
    rcases lt_or_gt_of_ne hne with h | h
    · rw [if_neg (by rw [hgt32f hy fval_zero32.1, fval_zero32.2]; linarith), if_pos (by rw [CC.hlt_finite binary32 hy fval_zero32.1, fval_zero32.2]; exact h)]
      have a := Complex.arg_eq_neg_pi_div_two_iff.2 (show (⟨0, binary32.val y⟩ : ℂ).re = 0 ∧ (⟨0, binary32.val y⟩ : ℂ).im < 0 from ⟨rfl, h⟩)
      have n := (ap_pi2F md).neg
      refine ⟨n.fin, ?_⟩
      rw [a]
      have := n.err
      have k := mul_le_mul_of_nonneg_left (show (74 : ℝ) / 100 ≤ 5 * |-(π / 2)| by rw [abs_neg, abs_of_pos (by linarith [Real.pi_pos])]; norm_num at *; linarith) hu.le
      linarith
    · rw [if_pos (by rw [hgt32f hy fval_zero32.1, fval_zero32.2]; exact h)]
      have a := Complex.arg_eq_pi_div_two_iff.2 (show (⟨0, binary32.val y⟩ : ℂ).re = 0 ∧ 0 < (⟨0, binary32.val y⟩ : ℂ).im from ⟨rfl, h⟩)
      have n := ap_pi2F md
      refine ⟨n.fin, ?_⟩
      rw [a]
      have := n.err
      have k := mul_le_mul_of_nonneg_left (show (74 : ℝ) / 100 ≤ 5 * |π / 2| by rw [abs_of_pos (by linarith [Real.pi_pos])]; norm_num at *; linarith) hu.le
      linarith
  · rw [if_neg c]
    rw [CC.heq_finite binary32 hx fval_zero32.1, fval_zero32.2] at c
    obtain ⟨fa, ea⟩ := atan_quotF fused md hx hy c
    generalize CC.atanFloat fused md (binary32.hdiv md y x) = a at *
    have hb := Real.arctan_lt_pi_div_two (binary32.val y / binary32.val x)
    have hb2 := Real.neg_pi_div_two_lt_arctan (binary32.val y / binary32.val x)
    by_cases cx : binary32.hlt x 0 = true
    · rw [if_pos cx]
      rw [CC.hlt_finite binary32 hx fval_zero32.1, fval_zero32.2] at cx
      have ap : ApF md a (arctan (binary32.val y / binary32.val x)) 2 (261 / 100 * |arctan (binary32.val y / binary32.val x)| + 1 / 10 ^ 6) := by
        refine ⟨fa, le_trans ea ?_, abs_le.2 (by constructor <;> norm_num at * <;> linarith)⟩
        have c1 : 3 * ((1 : ℝ) / 2 ^ 100) ≤ 1 / 2 ^ 24 * (1 / 10 ^ 6) := by norm_num
        have c2 := mul_le_mul_of_nonneg_right hu3 (show (0 : ℝ) ≤ 1 / 10 ^ 6 by norm_num)
        linarith
      by_cases cy : binary32.hge y 0 = true
      · rw [if_pos cy]
        rw [hge32f hy fval_zero32.1, fval_zero32.2] at cy
        rw [arg_re_neg_im_nonneg cx cy]
        have hq : arctan (binary32.val y / binary32.val x) ≤ 0 := by
          rw [← neg_nonneg, ← Real.arctan_neg]; exact Real.arctan_nonneg.2 (by rw [← div_neg]; exact div_nonneg cy (by linarith))
        rw [abs_of_nonpos hq] at ap
        generalize arctan (binary32.val y / binary32.val x) = v at *
        have s := ApF.add ap (ap_piF md) (S := v + π) (B := v + π) (e := 5 * (v + π)) (by rw [abs_of_nonneg (by linarith [Real.pi_pos])]) le_rfl
          (by clear ea ap; norm_num at *; linarith) (by clear ea ap; norm_num at *; linarith)
        refine ⟨s.fin, ?_⟩
        have := s.err
        rw [abs_of_nonneg (a := v + π) (by linarith [Real.pi_pos])]
        linarith
      · rw [if_neg cy]
        rw [hge32f hy fval_zero32.1, fval_zero32.2, not_le] at cy
        rw [arg_re_neg_im_neg cx cy]
        have hq : 0 ≤ arctan (binary32.val y / binary32.val x) := Real.arctan_nonneg.2 (div_nonneg_of_nonpos cy.le cx.le)
        rw [abs_of_nonneg hq] at ap
        generalize arctan (binary32.val y / binary32.val x) = v at *
        have s := ApF.sub ap (ap_piF md) (S := π - v) (B := π - v) (e := 5 * (π - v)) (by rw [abs_of_nonpos (by linarith [Real.pi_pos])]; linarith) le_rfl
          (by clear ea ap; norm_num at *; linarith) (by clear ea ap; norm_num at *; linarith)
        refine ⟨s.fin, ?_⟩
        have := s.err
        rw [abs_of_nonpos (a := v - π) (by linarith [Real.pi_pos])]
        linarith
    · rw [if_neg cx]
      rw [CC.hlt_finite binary32 hx fval_zero32.1, fval_zero32.2, not_lt] at cx
      rw [arg_re_pos (lt_of_le_of_ne cx (Ne.symm c))]
      refine ⟨fa, le_trans ea ?_⟩
      have := mul_le_mul_of_nonneg_left (mul_le_mul_of_nonneg_right (show (261 / 100 : ℝ) ≤ 5 by norm_num) (abs_nonneg (arctan (binary32.val y / binary32.val x)))) hu.le
      linarith

example : binary32.Finite 0x80000001 ∧ binary32.Finite 0xC47A0000 ∧ ¬ (binary32.val 0xC47A0000 = 0 ∧ binary32.val 0x80000001 = 0) := by
  refine ⟨by decide +kernel, by decide +kernel, fun h => ?_⟩
  have := (binary32.val_eq_zero_iff _).1 h.1
  revert this; decide +kernel

/-- **C96.** Float `atan2` when an argument is a NaN: a NaN. -/
theorem C96_atan2f_nan (fused : Bool) (md : Mode) {x y : ℕ} (h : binary32.IsNaN x ∨ binary32.IsNaN y) : binary32.IsNaN (CC.atan2Float fused md y x) := by
  have h' : binary32.nanB y = true ∨ binary32.nanB x = true := h.symm.imp nan_testF nan_testF
  unfold CC.atan2Float
  dsimp only
  rw [if_pos (by rw [CC.isnan_eq, CC.isnan_eq]; rcases h' with h | h <;> rw [h] <;> simp), hadd_qnanF md h']
  exact qnan_nanF

example : binary32.IsNaN 0x7FC00000 := by decide +kernel

/-- **C96.** Float `atan2` when both arguments are zeros or infinities: the values prescribed by the C standard (annex F.10.1.4).  For the two cases with `3π/4` the result
is stated in round-to-nearest. -/
theorem C96_atan2f_zero_inf (fused : Bool) (md : Mode) :
    CC.atan2Float fused md 0 0 = 0 ∧ CC.atan2Float fused md 0x80000000 0 = 0x80000000 ∧
      CC.atan2Float fused md 0 0x80000000 = 0x40490FDB ∧ CC.atan2Float fused md 0x80000000 0x80000000 = 0xC0490FDB ∧
      CC.atan2Float fused md 0x7F800000 0x7F800000 = 0x3F490FDB ∧ CC.atan2Float fused md 0xFF800000 0x7F800000 = 0xBF490FDB ∧
      CC.atan2Float fused .nearest 0x7F800000 0xFF800000 = 0x4016CBE4 ∧ CC.atan2Float fused .nearest 0xFF800000 0xFF800000 = 0xC016CBE4 := by
  cases fused <;> cases md <;> decide +kernel

/-- **C96.** Float `atan2` of a finite `y` and an infinite `x`: `±0` for `+∞`, `±π` for `-∞`, with the sign of `y` (zeros included). -/
theorem C96_atan2f_x_inf (fused : Bool) (md : Mode) {y : ℕ} (hy : binary32.Finite y) :
    CC.atan2Float fused md y 0x7F800000 = (if binary32.sgn y then 0x80000000 else 0) ∧
      CC.atan2Float fused md y 0xFF800000 = (if binary32.sgn y then 0xC0490FDB else 0x40490FDB) := by
  obtain ⟨ny, iy⟩ := not_nan_infF hy
  have a1 : CC.isnan binary32 0x7F800000 = false := by decide +kernel
  have a2 : CC.isinf binary32 0x7F800000 = true := by decide +kernel
  have a3 : binary32.hgt 0x7F800000 0 = true := by decide +kernel
  have b1 : CC.isnan binary32 0xFF800000 = false := by decide +kernel
  have b2 : CC.isinf binary32 0xFF800000 = true := by decide +kernel
  have b3 : binary32.hgt 0xFF800000 0 = false := by decide +kernel
  have b4 : binary32.hneg 0x40490FDB = 0xC0490FDB := by decide +kernel
  unfold CC.atan2Float
  dsimp only
  rw [ny, iy, a1, a2, a3, b1, b2, b3, b4, FPBits.isNeg_eq _ hy.valid]
  simp only [Bool.false_eq_true, Bool.or_false, if_false, if_true]
  rcases lt_trichotomy (binary32.val y) 0 with h | h | h
  · have h1 : ¬ binary32.hgt y 0 = true := by rw [hgt32f hy fval_zero32.1, fval_zero32.2]; linarith
    have h2 : binary32.hlt y 0 = true := by rw [CC.hlt_finite binary32 hy fval_zero32.1, fval_zero32.2]; exact h
    rw [if_neg h1, if_neg h1, if_pos h2, if_pos h2, sgn_of_neg _ h]; simp
  · have h1 : ¬ binary32.hgt y 0 = true := by rw [hgt32f hy fval_zero32.1, fval_zero32.2]; linarith
    have h2 : ¬ binary32.hlt y 0 = true := by rw [CC.hlt_finite binary32 hy fval_zero32.1, fval_zero32.2]; linarith
    rw [if_neg h1, if_neg h1, if_neg h2, if_neg h2]
    refine ⟨?_, rfl⟩
    rcases zero_casesF hy h with rfl | rfl <;> decide +kernel
  · have h1 : binary32.hgt y 0 = true := by rw [hgt32f hy fval_zero32.1, fval_zero32.2]; exact h
    rw [if_pos h1, if_pos h1, sgn_of_pos _ h]; simp

example : binary32.Finite 0x80000000 := by decide +kernel

/-- **C96.** Float `atan2` of an infinite `y` and a finite `x`: the float nearest to `±π/2`. -/
theorem C96_atan2f_y_inf (fused : Bool) (md : Mode) {x : ℕ} (hx : binary32.Finite x) :
    CC.atan2Float fused md 0x7F800000 x = 0x3FC90FDB ∧ CC.atan2Float fused md 0xFF800000 x = 0xBFC90FDB := by
  obtain ⟨nx, ix⟩ := not_nan_infF hx
  have a1 : CC.isnan binary32 0x7F800000 = false := by decide +kernel
  have a2 : CC.isinf binary32 0x7F800000 = true := by decide +kernel
  have a3 : FPBits.isNeg binary32 0x7F800000 = false := by decide +kernel
  have b1 : CC.isnan binary32 0xFF800000 = false := by decide +kernel
  have b2 : CC.isinf binary32 0xFF800000 = true := by decide +kernel
  have b3 : FPBits.isNeg binary32 0xFF800000 = true := by decide +kernel
  have b4 : binary32.hneg 0x3FC90FDB = 0xBFC90FDB := by decide +kernel
  unfold CC.atan2Float
  dsimp only
  rw [nx, ix, a1, a2, a3, b1, b2, b3, pi_div_twoF, b4]
  simp

/-- a zero divided by a non-zero finite number -/
theorem zero_div_eqF (md : Mode) {x y : ℕ} (hx : binary32.Finite x) (hy : binary32.Finite y) (h0 : binary32.val x ≠ 0) (hz : binary32.val y = 0) :
    binary32.hdiv md y x = if xor (binary32.sgn y) (binary32.sgn x) then 0x80000000 else 0 := by
  have R := binary32.hdiv_spec md hy hx h0
  rw [hz, zero_div] at R
  obtain ⟨f1, v1⟩ := RoundsTo.exact binary32 fval_zero32.1 fval_zero32.2 R
  have s := R.sign
  rw [if_pos rfl] at s
  rw [← s]
  rcases zero_casesF f1 v1 with h | h <;> rw [h] <;> decide +kernel

/-- what `atan2` computes for a zero `y` and a finite non-zero `x` -/
theorem atan2_zeroF (fused : Bool) (md : Mode) {x y : ℕ} (hx : binary32.Finite x) (hy : binary32.Finite y) (h0 : binary32.val x ≠ 0) (hz : binary32.val y = 0) :
    CC.atan2Float fused md y x = if binary32.hlt x 0 then 0x40490FDB else if xor (binary32.sgn y) (binary32.sgn x) then 0x80000000 else 0 := by
  obtain ⟨nx, ix⟩ := not_nan_infF hx
  obtain ⟨ny, iy⟩ := not_nan_infF hy
  obtain ⟨s1, s2, -⟩ := C96_atanf_special fused md
  unfold CC.atan2Float
  dsimp only
  rw [nx, ny, ix, iy]
  simp only [Bool.false_eq_true, Bool.or_false, if_false]
  rw [if_neg (by rw [CC.heq_finite binary32 hx fval_zero32.1, fval_zero32.2]; exact h0), zero_div_eqF md hx hy h0 hz,
    if_pos (c := binary32.hge y 0 = true) (by rw [hge32f hy fval_zero32.1, fval_zero32.2, hz])]
  have p1 : binary32.hadd md 0 0x40490FDB = 0x40490FDB := by cases md <;> decide +kernel
  have p2 : binary32.hadd md 0x80000000 0x40490FDB = 0x40490FDB := by cases md <;> decide +kernel
  cases xor (binary32.sgn y) (binary32.sgn x)
  · simp only [Bool.false_eq_true, if_false]; rw [s1, p1]
  · simp only [if_true]; rw [s2, p2]

/-- **C96.** Float `atan2(±0, x)`: for `x > 0` the zero `y` itself; for `x < 0` and `y = +0` the float nearest to π.  The case `y = -0`, `x < 0` is wrong, see
`C96_atan2f_negative_zero_wrong`. -/
theorem C96_atan2f_y_zero_partial (fused : Bool) (md : Mode) {x : ℕ} (hx : binary32.Finite x) :
    (0 < binary32.val x → CC.atan2Float fused md 0 x = 0 ∧ CC.atan2Float fused md 0x80000000 x = 0x80000000) ∧
      (binary32.val x < 0 → CC.atan2Float fused md 0 x = 0x40490FDB) := by
  have fz : binary32.Finite 0x80000000 := by decide +kernel
  have vz : binary32.val 0x80000000 = 0 := by rw [binary32.val_eq_zero_iff]; decide
  have g1 : binary32.sgn 0x80000000 = true := by decide +kernel
  have g0 : binary32.sgn 0 = false := by decide +kernel
  refine ⟨fun h => ?_, fun h => ?_⟩
  · have h1 : ¬ binary32.hlt x 0 = true := by rw [CC.hlt_finite binary32 hx fval_zero32.1, fval_zero32.2]; linarith
    rw [atan2_zeroF fused md hx fval_zero32.1 h.ne' fval_zero32.2, atan2_zeroF fused md hx fz h.ne' vz, if_neg h1, if_neg h1, sgn_of_pos _ h, g0, g1]
    exact ⟨rfl, rfl⟩
  · rw [atan2_zeroF fused md hx fval_zero32.1 h.ne fval_zero32.2, if_pos (by rw [CC.hlt_finite binary32 hx fval_zero32.1, fval_zero32.2]; exact h)]

/-- **C96.** Float `atan2(-0, x)` for every finite `x < 0`: the code returns `+π`, where IEEE 754 and the C standard require `-π`. -/
theorem C96_atan2f_negative_zero_wrong (fused : Bool) (md : Mode) {x : ℕ} (hx : binary32.Finite x) (h : binary32.val x < 0) :
    CC.atan2Float fused md 0x80000000 x = 0x40490FDB := by
  have fz : binary32.Finite 0x80000000 := by decide +kernel
  have vz : binary32.val 0x80000000 = 0 := by rw [binary32.val_eq_zero_iff]; decide
  rw [atan2_zeroF fused md hx fz h.ne vz, if_pos (by rw [CC.hlt_finite binary32 hx fval_zero32.1, fval_zero32.2]; exact h)]

example : binary32.Finite 0xBF800000 ∧ binary32.val 0xBF800000 < 0 ∧ CC.atan2Float true .nearest 0x80000000 0xBF800000 = 0x40490FDB := by
  refine ⟨by decide +kernel, ?_, by decide +kernel⟩
  rw [lit32 true 8388608 23 (by decide +kernel) (by decide +kernel) (by decide +kernel) (by decide +kernel)]; norm_num [sg]

end Verif
