import Verif.Lemmas.AsinF2
import Verif.Lemmas.Asin7
import Verif.Lemmas.LogH

/-!
# Accuracy of float `acos`
-/

namespace Verif
open Fmt Real

theorem val_m10F : binary32.Finite 0x3A800000 ∧ binary32.val 0x3A800000 = 1 / 2 ^ 10 := by
  refine ⟨by decide +kernel, ?_⟩
  rw [lit32 false 8388608 33 (by decide +kernel) (by decide +kernel) (by decide +kernel) (by decide +kernel)]; norm_num [sg]
theorem fval_zero32 : binary32.Finite 0 ∧ binary32.val 0 = 0 := ⟨by decide +kernel, by rw [binary32.val_eq_zero_iff]; decide⟩

theorem val_pi32 : binary32.Finite 0x40490FDB ∧ |binary32.val 0x40490FDB - π| ≤ 147 / 100 * (1 / 2 ^ 24) := by
  refine ⟨by decide +kernel, ?_⟩
  rw [lit32 false 13176795 22 (by decide +kernel) (by decide +kernel) (by decide +kernel) (by decide +kernel)]
  have h1 := Real.pi_gt_d20
  have h2 := Real.pi_lt_d20
  norm_num [sg] at *
  rw [abs_le]
  constructor <;> linarith

theorem val_pi232 : binary32.Finite 0x3FC90FDB ∧ |binary32.val 0x3FC90FDB - π / 2| ≤ 74 / 100 * (1 / 2 ^ 24) := by
  refine ⟨by decide +kernel, ?_⟩
  rw [lit32 false 13176795 23 (by decide +kernel) (by decide +kernel) (by decide +kernel) (by decide +kernel)]
  have h1 := Real.pi_gt_d20
  have h2 := Real.pi_lt_d20
  norm_num [sg] at *
  rw [abs_le]
  constructor <;> linarith

theorem ap_piF (md : Mode) : ApF md 0x40490FDB π (31416 / 10000) (147 / 100) := by
  refine ⟨val_pi32.1, le_trans val_pi32.2 ?_, ?_⟩
  · have := mul_le_mul_of_nonneg_right (ruf_ge md) (show (0 : ℝ) ≤ 147 / 100 by norm_num)
    linarith
  · rw [abs_of_pos Real.pi_pos]; have := Real.pi_lt_d20; norm_num at *; linarith

theorem ap_pi2F (md : Mode) : ApF md 0x3FC90FDB (π / 2) (15708 / 10000) (74 / 100) := by
  refine ⟨val_pi232.1, le_trans val_pi232.2 ?_, ?_⟩
  · have := mul_le_mul_of_nonneg_right (ruf_ge md) (show (0 : ℝ) ≤ 74 / 100 by norm_num)
    linarith
  · rw [abs_of_pos (by have := Real.pi_pos; linarith)]; have := Real.pi_lt_d20; norm_num at *; linarith

theorem pi_div_twoF (md : Mode) : binary32.hdiv md 0x40490FDB 0x40000000 = 0x3FC90FDB := by cases md <;> decide +kernel

/-- `acos_kernel` below `2^-10` -/
theorem acos_tinyF (fused : Bool) (md : Mode) {x : ℕ} (hx : binary32.Finite x) (h : |binary32.val x| ≤ 1 / 2 ^ 10) :
    binary32.Finite (binary32.hadd md 0x3FC90FDB (CC.multiplyAdd binary32 fused md (binary32.hmul md 0xBE2AAAAB x) (binary32.hmul md x x) (binary32.hneg x))) ∧
      |binary32.val (binary32.hadd md 0x3FC90FDB (CC.multiplyAdd binary32 fused md (binary32.hmul md 0xBE2AAAAB x) (binary32.hmul md x x) (binary32.hneg x))) -
        arccos (binary32.val x)| ≤ ruf md * (3 * arccos (binary32.val x)) := by
  have hu := ruf_pos md
  have hu3 := ruf_ge md
  have hk : binary32.val 0xBE2AAAAB = -(11184811 / 2 ^ 26) := by
    rw [lit32 true 11184811 26 (by decide +kernel) (by decide +kernel) (by decide +kernel) (by decide +kernel)]; norm_num [sg]
  have a0 : ApF md x (binary32.val x) (1 / 2 ^ 10) 0 := ApF.exact hx h
  have a1 : ApF md 0xBE2AAAAB (-(6004799503160661 / 2 ^ 55)) 1 (1 / 10) := ApF.ofNear (by decide +kernel) (by rw [hk]; norm_num [abs_le]) (by norm_num [abs_le])
  have a2 := ApF.mul a1 a0 (B := 1 / 2 ^ 10) (e := 1 / 500) (by norm_num) (by norm_num) (by norm_num)
  have a3 := ApF.mul a0 a0 (B := 1 / 2 ^ 10) (e := 1 / 500) (by norm_num) (by norm_num) (by norm_num)
  have a4 := ApF.ma fused a2 a3 a0.neg (B := 1 / 500) (e := 1 / 100) (by norm_num) (by norm_num) (by norm_num) (by norm_num) (by norm_num) (by norm_num) (by norm_num) (by norm_num)
  have hpi1 := Real.pi_gt_d20
  have hpi2 := Real.pi_lt_d20
  have a5 := ApF.add (ap_pi2F md) a4 (S := 158 / 100) (B := 2) (e := 24 / 10) (abs_le.2 (by
    have := abs_le.1 a4.bd
    constructor <;> norm_num at * <;> linarith)) (by norm_num) (by norm_num) (by norm_num)
  refine ⟨a5.fin, ?_⟩
  have h1 := arcsin_cubic (k := 6004799503160661 / 2 ^ 55) h (by norm_num [abs_le])
  have hXX : binary32.val x ^ 2 ≤ 1 / 2 ^ 20 := by
    have := abs_mul_le h h
    rw [← pow_two, abs_of_nonneg (sq_nonneg _)] at this
    exact le_trans this (by norm_num)
  have h6 := arcsin_half_le (X := binary32.val x) (le_trans h (by norm_num))
  rw [arccos]
  generalize binary32.val x = X at *
  have h2 : |X + X * (X ^ 2 * (6004799503160661 / 2 ^ 55)) - arcsin X| ≤ 1 / 2 ^ 24 := by
    refine le_trans h1 ?_
    have b : X ^ 2 * (11 / 100 * X ^ 2 + 1 / 2 ^ 42) ≤ 1 / 2 ^ 20 * (11 / 100 * (1 / 2 ^ 20) + 1 / 2 ^ 42) :=
      mul_le_mul hXX (by linarith) (by positivity) (by positivity)
    refine le_trans (mul_le_mul (add_le_add_left b _) h (abs_nonneg _) (by positivity)) (by norm_num)
  have e : ∀ r : ℝ, r - (π / 2 - arcsin X) = (r - (π / 2 + (-(6004799503160661 / 2 ^ 55) * X * (X * X) + -X))) + -(X + X * (X ^ 2 * (6004799503160661 / 2 ^ 55)) - arcsin X) := by
    intro r; ring
  rw [e]
  refine le_trans (abs_add_le' a5.err (abs_neg_le (le_trans h2 hu3))) ?_
  have h7 : 1 ≤ π / 2 - arcsin X := by
    have := (abs_le.1 h6).2; norm_num at *; linarith
  have h8 : 121 / 100 ≤ π / 2 - arcsin X := by
    have := (abs_le.1 h6).2
    have h9 : |arcsin X| ≤ 1 / 500 := by
      have h2' : |arcsin X - (X + X * (X ^ 2 * (6004799503160661 / 2 ^ 55)))| ≤ 1 / 2 ^ 24 := by rwa [abs_sub_comm] at h2
      have := abs_near h2' (show |X + X * (X ^ 2 * (6004799503160661 / 2 ^ 55))| ≤ 1 / 600 by
        rw [show X + X * (X ^ 2 * (6004799503160661 / 2 ^ 55)) = X * (1 + X ^ 2 * (6004799503160661 / 2 ^ 55)) by ring]
        refine le_trans (abs_mul_le h (show |1 + X ^ 2 * (6004799503160661 / 2 ^ 55)| ≤ 11 / 10 by
          rw [abs_of_nonneg (by positivity)]
          have := mul_le_mul_of_nonneg_right hXX (show (0 : ℝ) ≤ 6004799503160661 / 2 ^ 55 by norm_num)
          norm_num at this ⊢; linarith)) (by norm_num))
      refine le_trans this (by norm_num)
    have := (abs_le.1 h9).2; norm_num at *; linarith
  calc ruf md * (24 / 10) + ruf md = ruf md * (34 / 10) := by ring
    _ ≤ _ := mul_le_mul_of_nonneg_left (by linarith) hu.le

theorem acos_mid_auxF {u d q r X T A P : ℝ} (hu : 0 < u) (hu2 : u ≤ 1 / 2 ^ 23) (hu3 : 1 / 2 ^ 24 ≤ u) (hX : |X| ≤ 1 / 2) (hA : 1047 / 1000 ≤ A) (hA2 : A ≤ 21 / 10)
    (h1 : |q - X * T| ≤ u * (281 / 1000 * |X|)) (hq : |q| ≤ 48 / 1000 * |X|) (h2 : |d - (P - X)| ≤ u * (74 / 100 + (A + 25 / 1000) + 1 / 1000))
    (h3 : |X + X * T - (P - A)| ≤ 1 / 5 / 2 ^ 24 * |X|) (h4 : |r - (-q + d)| ≤ u * |-q + d| + (1 + 1 / 2 ^ 20) * u * |q| + u * (1 / 1000)) :
    |r - A| ≤ u * (3 * A) := by
  have u1 : u ≤ 1 / 10 ^ 6 := le_trans hu2 (by norm_num)
  have hX0 := abs_nonneg X
  have h3' : |X + X * T - (P - A)| ≤ u * (1 / 10) := by
    refine le_trans h3 ?_
    have a := mul_le_mul_of_nonneg_left hX (show (0 : ℝ) ≤ 1 / 5 / 2 ^ 24 by norm_num)
    have := mul_le_mul_of_nonneg_right hu3 (show (0 : ℝ) ≤ 1 / 10 by norm_num)
    linarith
  have h1' : |q - X * T| ≤ u * (141 / 1000) := le_trans h1 (mul_le_mul_of_nonneg_left (by linarith) hu.le)
  have k : |-q + d - A| ≤ u * (1010 / 1000 + A) := by
    rw [show -q + d - A = -(q - X * T) + (d - (P - X)) + -(X + X * T - (P - A)) by ring]
    refine le_trans (abs_add_le' (abs_add_le' (abs_neg_le h1') h2) (abs_neg_le h3')) ?_
    rw [← mul_add, ← mul_add]
    exact mul_le_mul_of_nonneg_left (by linarith) hu.le
  have k2 := abs_near k (le_of_eq (abs_of_pos (show 0 < A by linarith)))
  have k3 : u * (1010 / 1000 + A) ≤ 1 / 1000 := by
    have := mul_le_mul u1 (show 1010 / 1000 + A ≤ 4 by linarith) (by linarith) (by norm_num)
    norm_num at *; linarith
  have k4 : u * |-q + d| ≤ u * (A + 1 / 1000) := mul_le_mul_of_nonneg_left (by linarith) hu.le
  have k5 : (1 + 1 / 2 ^ 20) * u * |q| ≤ u * (25 / 1000) := by
    have : |q| ≤ 24 / 1000 := by linarith
    have b : (1 + 1 / 2 ^ 20) * u * |q| ≤ (1 + 1 / 2 ^ 20) * u * (24 / 1000) := mul_le_mul_of_nonneg_left this (by positivity)
    have c : (1 + 1 / 2 ^ 20) * u * (24 / 1000) = u * ((1 + 1 / 2 ^ 20) * (24 / 1000)) := by ring
    rw [c] at b
    exact le_trans b (mul_le_mul_of_nonneg_left (by norm_num) hu.le)
  refine le_trans (abs_tri h4 k) ?_
  refine le_trans (add_le_add_left (add_le_add_left (add_le_add k4 k5) _) _) ?_
  rw [← mul_add, ← mul_add, ← mul_add]
  exact mul_le_mul_of_nonneg_left (by linarith) hu.le

/-- `acos_kernel` between `2^-10` and one half -/
theorem acos_midF (fused : Bool) (md : Mode) {x : ℕ} (hx : binary32.Finite x) (h1 : 1 / 2 ^ 10 ≤ |binary32.val x|) (h2 : |binary32.val x| ≤ 1 / 2) :
    let r := CC.multiplyAdd binary32 fused md (binary32.hneg (binary32.hmul md x (binary32.hmul md x x))) (CC.asinEvalF fused md (binary32.hmul md x x))
      (binary32.hsub md 0x3FC90FDB x)
    binary32.Finite r ∧ |binary32.val r - arccos (binary32.val x)| ≤ ruf md * (3 * arccos (binary32.val x)) := by
  intro r
  have hu := ruf_pos md
  have hu2 := ruf_le md
  have hu3 := ruf_ge md
  have hη := etaf_le
  have hη0 := etaf_pos
  have hpi1 := Real.pi_gt_d20
  have hpi2 := Real.pi_lt_d20
  have h6 := abs_le.1 (arcsin_half_le h2)
  have hX2 := abs_le.1 h2
  obtain ⟨f3, fr, br, b3, key⟩ := asin_cubeF fused md hx (le_trans (by norm_num) h1) h2
  have pol := le_trans (asinP_arcsin_abs h2) (mul_le_mul_of_nonneg_right (show (1 : ℝ) / 5 / 2 ^ 53 ≤ 1 / 5 / 2 ^ 24 by norm_num) (abs_nonneg _))
  obtain ⟨-, hlip⟩ := asinA_lip (binary32.val x ^ 2) 0 (sq_nonneg _) (by
    have := abs_mul_le h2 h2
    rw [← pow_two, abs_of_nonneg (sq_nonneg _)] at this
    exact le_trans this (by norm_num)) le_rfl (by norm_num)
  obtain ⟨hlipb, -⟩ := asinA_lip (binary32.val x ^ 2) 0 (sq_nonneg _) (by
    have := abs_mul_le h2 h2
    rw [← pow_two, abs_of_nonneg (sq_nonneg _)] at this
    exact le_trans this (by norm_num)) le_rfl (by norm_num)
  have a0 : ApF md x (binary32.val x) (1 / 2) 0 := ApF.exact hx h2
  set A := arccos (binary32.val x) with hA
  have hAe : A = π / 2 - arcsin (binary32.val x) := rfl
  have hdS : |π / 2 - binary32.val x| ≤ A + 25 / 1000 := by
    have c : |arcsin (binary32.val x) - binary32.val x| ≤ 25 / 1000 := by
      have h5 : |binary32.val x * (binary32.val x ^ 2 * asinP (binary32.val x ^ 2))| ≤ 1 / 2 * (48 / 1000) := abs_mul_le h2 hlipb
      rw [show arcsin (binary32.val x) - binary32.val x = binary32.val x * (binary32.val x ^ 2 * asinP (binary32.val x ^ 2)) +
        -(binary32.val x + binary32.val x * (binary32.val x ^ 2 * asinP (binary32.val x ^ 2)) - arcsin (binary32.val x)) by ring]
      refine le_trans (abs_add_le' h5 (abs_neg_le pol)) ?_
      have := mul_le_mul_of_nonneg_left h2 (show (0 : ℝ) ≤ 1 / 5 / 2 ^ 24 by norm_num)
      norm_num at *; linarith
    have := abs_le.1 c
    rw [abs_of_nonneg (by norm_num at *; linarith), hAe]
    linarith
  have hA1 : 1047 / 1000 ≤ A := by rw [hAe]; norm_num at *; linarith
  have hA2 : A ≤ 21 / 10 := by rw [hAe]; norm_num at *; linarith
  have d := ApF.sub (ap_pi2F md) a0 (S := A + 25 / 1000) (B := A + 25 / 1000) (e := 74 / 100 + (A + 25 / 1000) + 1 / 1000) hdS le_rfl (by norm_num; linarith) (by norm_num; linarith)
  have hq : |binary32.val (binary32.hmul md x (binary32.hmul md x x)) * binary32.val (CC.asinEvalF fused md (binary32.hmul md x x))| ≤ 48 / 1000 * |binary32.val x| := by
    refine le_trans (abs_mul_le b3 br) ?_
    have := abs_nonneg (binary32.val x)
    linarith
  have hdb : |binary32.val (binary32.hsub md 0x3FC90FDB x)| ≤ 10 := by
    refine le_trans d.val_le ?_
    norm_num; linarith
  have f3n := binary32.finite_hneg f3
  have v3n := binary32.val_hneg (binary32.hmul md x (binary32.hmul md x x))
  obtain ⟨fo, eo⟩ := ma32_err fused md f3n fr d.fin (by rw [v3n, neg_mul, abs_neg]; refine le_trans hq (by norm_num at *; linarith)) (le_trans hdb (by norm_num))
  refine ⟨fo, ?_⟩
  rw [v3n, neg_mul, abs_neg] at eo
  refine acos_mid_auxF hu hu2 hu3 h2 hA1 hA2 key hq d.err (by rw [hAe, sub_sub_cancel]; exact pol) (le_trans eo ?_)
  have : 3 * etaf ≤ ruf md * (1 / 1000) := by
    have a := mul_le_mul_of_nonneg_right hu3 (show (0 : ℝ) ≤ 1 / 1000 by norm_num)
    have b : (3 : ℝ) * (1 / 2 ^ 100) ≤ 1 / 2 ^ 24 * (1 / 1000) := by norm_num
    linarith
  linarith

theorem acosKernelF_spec (fused : Bool) (md : Mode) {x : ℕ} (hx : binary32.Finite x) (h : |binary32.val x| < 1) :
    binary32.Finite (CC.acosKernelF fused md x) ∧ |binary32.val (CC.acosKernelF fused md x) - arccos (binary32.val x)| ≤ ruf md * (3 * arccos (binary32.val x)) := by
  obtain ⟨fa, va, -⟩ := C03_fabs_value binary32 hx
  unfold CC.acosKernelF
  dsimp only
  split_ifs with c1 c2 c3
  · rw [CC.hlt_finite binary32 fa val_m10F.1, va, val_m10F.2] at c2
    exact acos_tinyF fused md hx c2.le
  · rw [CC.hle_finite binary32 fa fval_half32.1, va, fval_half32.2] at c1
    rw [CC.hlt_finite binary32 fa val_m10F.1, va, val_m10F.2, not_lt] at c2
    exact acos_midF fused md hx c2 c1
  · rw [CC.hle_finite binary32 fa fval_half32.1, va, fval_half32.2, not_le] at c1
    rw [CC.hlt_finite binary32 hx fval_zero32.1, fval_zero32.2] at c3
    obtain ⟨fr, er⟩ := acos_bigF fused md fa (by rw [va]; exact c1.le) (by rw [va]; exact h)
    rw [va, abs_of_neg c3, Real.arccos_neg] at er
    rw [abs_of_neg c3] at c1 h
    have hu := ruf_pos md
    have hpi1 := Real.pi_gt_d20
    have hpi2 := Real.pi_lt_d20
    have hge := arcsin_half_ge c1.le
    rw [Real.arcsin_neg] at hge
    have hle := Real.arccos_le_pi (binary32.val x)
    have hAA : arccos (binary32.val x) = π / 2 - arcsin (binary32.val x) := rfl
    generalize arccos (binary32.val x) = A at *
    have ap : ApF md _ (π - A) (105 / 100) (253 / 100 * (π - A)) := ⟨fr, er, by rw [abs_of_nonneg (by linarith)]; norm_num at *; linarith⟩
    have s := ApF.sub (ap_piF md) ap (S := A) (B := A) (e := 3 * A) (by rw [sub_sub_cancel, abs_of_nonneg (by linarith)]) le_rfl
      (by norm_num at *; linarith) (by norm_num at *; linarith)
    have := s.err
    rw [sub_sub_cancel] at this
    exact ⟨s.fin, this⟩
  · rw [CC.hle_finite binary32 fa fval_half32.1, va, fval_half32.2, not_le] at c1
    rw [CC.hlt_finite binary32 hx fval_zero32.1, fval_zero32.2, not_lt] at c3
    obtain ⟨fr, er⟩ := acos_bigF fused md fa (by rw [va]; exact c1.le) (by rw [va]; exact h)
    rw [va, abs_of_nonneg c3] at er
    refine ⟨fr, le_trans er (mul_le_mul_of_nonneg_left (mul_le_mul_of_nonneg_right (by norm_num) (Real.arccos_nonneg _)) (ruf_pos md).le)⟩

theorem hgt32f {x y : ℕ} (hx : binary32.Finite x) (hy : binary32.Finite y) : binary32.hgt x y = true ↔ binary32.val y < binary32.val x :=
  CC.hlt_finite binary32 hy hx

theorem acosFloat_spec (fused : Bool) (md : Mode) {x : ℕ} (hx : binary32.Finite x) (h : |binary32.val x| ≤ 1) :
    binary32.Finite (CC.acosFloat fused md x) ∧ |binary32.val (CC.acosFloat fused md x) - arccos (binary32.val x)| ≤ ruf md * (3 * arccos (binary32.val x)) := by
  obtain ⟨fa, va, -⟩ := C03_fabs_value binary32 hx
  have f1 : binary32.Finite 0x3F800000 := by decide +kernel
  unfold CC.acosFloat
  dsimp only
  rw [FPBits.isNan_eq, FPBits.isInf_eq, (binary32.finite_B hx).1, (binary32.finite_B hx).2]
  simp only [Bool.false_eq_true, if_false]
  rw [if_neg (by rw [hgt32f fa f1, va, fval_one32.2, not_lt]; exact h)]
  split_ifs with c1 c2
  · rw [CC.heq_finite binary32 fa f1, va, fval_one32.2] at c1
    rw [CC.hlt_finite binary32 hx fval_zero32.1, fval_zero32.2] at c2
    rw [abs_of_neg c2] at c1
    rw [show binary32.val x = -1 by linarith, Real.arccos_neg_one]
    refine ⟨val_pi32.1, le_trans (ap_piF md).err (mul_le_mul_of_nonneg_left ?_ (ruf_pos md).le)⟩
    have := Real.pi_gt_d20; norm_num at *; linarith
  · rw [CC.heq_finite binary32 fa f1, va, fval_one32.2] at c1
    rw [CC.hlt_finite binary32 hx fval_zero32.1, fval_zero32.2, not_lt] at c2
    rw [abs_of_nonneg c2] at c1
    rw [c1, Real.arccos_one, fval_zero32.2]
    exact ⟨fval_zero32.1, by simp⟩
  · rw [CC.heq_finite binary32 fa f1, va, fval_one32.2] at c1
    exact acosKernelF_spec fused md hx (lt_of_le_of_ne h c1)

end Verif
