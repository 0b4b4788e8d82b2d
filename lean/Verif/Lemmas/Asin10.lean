import Verif.Lemmas.Asin9

/-!
# Accuracy of double `atan`: the whole function
-/

namespace Verif
open Fmt Real

theorem not_nan_inf {x : ℕ} (hx : binary64.Finite x) : CC.isnan binary64 x = false ∧ CC.isinf binary64 x = false := by
  rw [CC.isnan_eq, CC.isinf_eq]; exact binary64.finite_B hx

/-- arguments of magnitude at most 1: no recursion -/
theorem atanStep_le_one (fused : Bool) (md : Mode) (self : ℕ → ℕ) {x : ℕ} (hx : binary64.Finite x) (h : |binary64.val x| ≤ 1) :
    (∀ g, CC.atanStep fused md self x = CC.atanStep fused md g x) ∧
    binary64.Finite (CC.atanStep fused md self x) ∧
      |binary64.val (CC.atanStep fused md self x) - arctan (binary64.val x)| ≤ ru md * (18 * |arctan (binary64.val x)|) + 3 * eta ∧
      (0 ≤ binary64.val x → |binary64.val (CC.atanStep fused md self x) - arctan (binary64.val x)| ≤ ru md * (12 * |arctan (binary64.val x)|) + 3 * eta) := by
  obtain ⟨fa, va, -⟩ := C03_fabs_value binary64 hx
  have f1 : binary64.Finite 0x3FF0000000000000 := by decide +kernel
  have hgt : ¬ binary64.hgt (CC.abs binary64 x) 0x3FF0000000000000 = true := by rw [hgt_finite' fa f1, va, val_one64, not_lt]; exact h
  have hu := ru_pos md
  have hη0 := eta_pos
  refine ⟨fun g => ?_, ?_⟩
  · unfold CC.atanStep
    dsimp only
    rw [if_neg hgt, if_neg hgt]
  unfold CC.atanStep
  dsimp only
  rw [(not_nan_inf hx).1, (not_nan_inf fa).2]
  simp only [Bool.false_eq_true, if_false]
  by_cases c0 : binary64.heq x 0 = true
  · rw [if_pos c0]
    rw [CC.heq_finite binary64 hx val_zero64.1, val_zero64.2] at c0
    rw [c0, Real.arctan_zero]
    refine ⟨hx, ?_, fun _ => ?_⟩ <;> · simp; exact hη0.le
  rw [if_neg c0, if_neg hgt]
  by_cases c1 : binary64.hlt (CC.abs binary64 x) 0x3F10000000000000 = true
  · rw [if_pos c1]
    rw [CC.hlt_finite binary64 fa fval_m14.1, va, fval_m14.2] at c1
    obtain ⟨ft, et⟩ := atan_tiny md fa (by rw [va]; exact abs_nonneg _) (by rw [va]; exact c1.le)
    rw [va] at et
    have hk : ∀ d : ℝ, 11 / 10 ≤ d → ru md * (11 / 10 * arctan |binary64.val x|) ≤ ru md * (d * |arctan (binary64.val x)|) := by
      intro d hd
      have : arctan |binary64.val x| = |arctan (binary64.val x)| := by
        rcases le_total 0 (binary64.val x) with h | h
        · rw [abs_of_nonneg h, abs_of_nonneg (Real.arctan_nonneg.2 h)]
        · rw [abs_of_nonpos h, abs_of_nonpos (by rw [← neg_nonneg, ← Real.arctan_neg]; exact Real.arctan_nonneg.2 (by linarith)), Real.arctan_neg]
      rw [this]
      exact mul_le_mul_of_nonneg_left (mul_le_mul_of_nonneg_right hd (abs_nonneg _)) hu.le
    by_cases c2 : binary64.hlt x 0 = true
    · rw [if_pos c2]
      rw [CC.hlt_finite binary64 hx val_zero64.1, val_zero64.2] at c2
      refine ⟨binary64.finite_hneg ft, ?_, fun h => absurd h (by linarith)⟩
      rw [binary64.val_hneg]
      have e : ∀ r : ℝ, -r - arctan (binary64.val x) = -(r - arctan |binary64.val x|) := by
        intro r; rw [abs_of_neg c2, Real.arctan_neg]; ring
      rw [e, abs_neg]
      exact le_trans et (by linarith [hk 18 (by norm_num)])
    · rw [if_neg c2]
      rw [CC.hlt_finite binary64 hx val_zero64.1, val_zero64.2, not_lt] at c2
      have k1 := hk 18 (by norm_num)
      have k2 := hk 12 (by norm_num)
      rw [abs_of_nonneg c2] at et k1 k2
      exact ⟨ft, le_trans et (by linarith), fun _ => le_trans et (by linarith)⟩
  · rw [if_neg c1]
    rw [CC.hlt_finite binary64 fa fval_m14.1, va, fval_m14.2, not_lt] at c1
    by_cases c2 : binary64.hlt x 0 = true
    · rw [if_pos c2]
      rw [CC.hlt_finite binary64 hx val_zero64.1, val_zero64.2] at c2
      have vn : binary64.val (binary64.hneg (CC.abs binary64 x)) = binary64.val x := by rw [binary64.val_hneg, va, abs_of_neg c2]; ring
      have := atan_mid fused md (n := binary64.hneg (CC.abs binary64 x)) (binary64.finite_hneg fa) fa (by rw [vn, va]) (by rw [vn]; exact c1) (by rw [vn]; exact h)
      rwa [vn] at this
    · rw [if_neg c2]
      rw [CC.hlt_finite binary64 hx val_zero64.1, val_zero64.2, not_lt] at c2
      have vn : binary64.val (CC.abs binary64 x) = binary64.val x := by rw [va, abs_of_nonneg c2]
      have := atan_mid fused md (n := CC.abs binary64 x) fa fa (by rw [vn, abs_of_nonneg c2]) (by rw [vn]; exact c1) (by rw [vn]; exact h)
      rwa [vn] at this

/-- the reciprocal of a number above 1 -/
theorem atan_recip (md : Mode) {ax : ℕ} (ha : binary64.Finite ax) (h : 1 < binary64.val ax) :
    binary64.Finite (binary64.hdiv md 0x3FF0000000000000 ax) ∧ 0 ≤ binary64.val (binary64.hdiv md 0x3FF0000000000000 ax) ∧ binary64.val (binary64.hdiv md 0x3FF0000000000000 ax) ≤ 1 ∧
      |binary64.val (binary64.hdiv md 0x3FF0000000000000 ax) - 1 / binary64.val ax| ≤ ru md * (1 / binary64.val ax) + eta := by
  have f1 : binary64.Finite 0x3FF0000000000000 := by decide +kernel
  have Rd := binary64.hdiv_spec md f1 ha (by intro h'; linarith)
  rw [val_one64] at Rd
  have hd0 : 0 < 1 / binary64.val ax := by positivity
  have hd1 : 1 / binary64.val ax ≤ 1 := by rw [div_le_one (by linarith)]; exact h.le
  obtain ⟨fr, er⟩ := err64 Rd (by rw [abs_of_pos hd0]; exact le_trans hd1 (by norm_num))
  rw [abs_of_pos hd0] at er
  obtain ⟨-, h1, h2⟩ := RoundsTo.between Rd val_zero64.1 f1 (by rw [val_zero64.2]; exact hd0.le) (by rw [val_one64]; exact hd1)
  rw [val_zero64.2] at h1
  rw [val_one64] at h2
  exact ⟨fr, h1, h2, er⟩

/-- the arctangent of the reciprocal, as computed for an argument above 1 -/
theorem atan_small (fused : Bool) (md : Mode) (g : ℕ → ℕ) {ax : ℕ} (ha : binary64.Finite ax) (h : 1 < binary64.val ax) :
    let recip := binary64.hdiv md 0x3FF0000000000000 ax
    let small := if binary64.hlt recip 0x3F10000000000000 = true then
        binary64.hadd md recip (binary64.hmul md (binary64.hmul md (binary64.hmul md recip recip) recip) 0xBFD5555555555555) else CC.atanStep fused md g recip
    Ap md small (arctan (1 / binary64.val ax)) (7854 / 10000) (136 / 10 * arctan (1 / binary64.val ax) + 1 / 10 ^ 6) := by
  intro recip small
  have hu := ru_pos md
  have hu2 := ru_le md
  have hu3 := ru_ge md
  have hη := eta_le
  have hη0 := eta_pos
  obtain ⟨fr, r0, r1, er⟩ := atan_recip md ha h
  change binary64.Finite recip at fr
  change 0 ≤ binary64.val recip at r0
  change binary64.val recip ≤ 1 at r1
  change |binary64.val recip - _| ≤ _ at er
  have hd0 : 0 < 1 / binary64.val ax := by positivity
  have hd1 : 1 / binary64.val ax ≤ 1 := by rw [div_le_one (by linarith)]; exact h.le
  have hs : binary64.Finite small ∧ |binary64.val small - arctan (binary64.val recip)| ≤ ru md * (12 * arctan (binary64.val recip)) + 3 * eta := by
    have hA0 : 0 ≤ arctan (binary64.val recip) := Real.arctan_nonneg.2 r0
    by_cases c : binary64.hlt recip 0x3F10000000000000 = true
    · have e : small = binary64.hadd md recip (binary64.hmul md (binary64.hmul md (binary64.hmul md recip recip) recip) 0xBFD5555555555555) := if_pos c
      rw [e]
      rw [CC.hlt_finite binary64 fr fval_m14.1, fval_m14.2] at c
      obtain ⟨f2, e2⟩ := atan_tiny md fr r0 c.le
      refine ⟨f2, le_trans e2 ?_⟩
      have : ru md * (11 / 10 * arctan (binary64.val recip)) ≤ ru md * (12 * arctan (binary64.val recip)) := mul_le_mul_of_nonneg_left (mul_le_mul_of_nonneg_right (by norm_num) hA0) hu.le
      linarith
    · have e : small = CC.atanStep fused md g recip := if_neg c
      rw [e]
      obtain ⟨-, f2, -, e2⟩ := atanStep_le_one fused md g fr (by rw [abs_of_nonneg r0]; exact r1)
      have := e2 r0
      rw [abs_of_nonneg hA0] at this
      exact ⟨f2, this⟩
  obtain ⟨fs, es⟩ := hs
  clear_value small recip
  have lip := arctan_lip (binary64.val recip) (1 / binary64.val ax)
  have c1 := (arctan_cubic hd0.le).1
  have hle := Real.arctan_le_arctan_iff.2 hd1
  rw [Real.arctan_one] at hle
  have hpi := Real.pi_lt_d20
  generalize 1 / binary64.val ax = z at *
  have hv : 2 / 3 * z ≤ arctan z := by
    have : z ^ 3 ≤ z := by
      have := pow_le_pow_of_le_one hd0.le hd1 (show 1 ≤ 3 by norm_num)
      simpa using this
    linarith
  have lip2 : |arctan (binary64.val recip) - arctan z| ≤ ru md * (3 / 2 * arctan z) + eta := by
    refine le_trans lip (le_trans er ?_)
    have := mul_le_mul_of_nonneg_left (show z ≤ 3 / 2 * arctan z by linarith) hu.le
    linarith
  have v0 : 0 < arctan z := lt_of_lt_of_le (by linarith) hv
  refine ⟨fs, ?_, by rw [abs_of_pos v0]; norm_num at *; linarith⟩
  have k1 : ru md * (3 / 2 * arctan z) ≤ 1 / 10 ^ 6 * (3 / 2 * arctan z) := mul_le_mul_of_nonneg_right (le_trans hu2 (by norm_num)) (by linarith)
  have k2 := (abs_le.1 lip2).2
  have k3 : 12 * arctan (binary64.val recip) ≤ 1201 / 100 * arctan z + 12 * eta := by
    norm_num at k1; linarith
  have k4 := mul_le_mul_of_nonneg_left k3 hu.le
  have k5 : 20 * eta ≤ ru md * (1 / 10 ^ 6) := by
    have a : 20 * ((1 : ℝ) / 2 ^ 200) ≤ 1 / 2 ^ 53 * (1 / 10 ^ 6) := by norm_num
    have b := mul_le_mul_of_nonneg_right hu3 (show (0 : ℝ) ≤ 1 / 10 ^ 6 by norm_num)
    linarith
  have k6 : ru md * (12 * eta) ≤ 12 * eta := by
    have := mul_le_mul_of_nonneg_right (le_trans hu2 (show (1 : ℝ) / 2 ^ 52 ≤ 1 by norm_num)) (show 0 ≤ 12 * eta by linarith)
    linarith
  refine le_trans (abs_tri es lip2) ?_
  have e1 : ru md * (1201 / 100 * arctan z + 12 * eta) = ru md * (1201 / 100 * arctan z) + ru md * (12 * eta) := by ring
  have e2 : ru md * (136 / 10 * arctan z + 1 / 10 ^ 6) = ru md * (1201 / 100 * arctan z) + ru md * (3 / 2 * arctan z) + ru md * (9 / 100 * arctan z) + ru md * (1 / 10 ^ 6) := by ring
  have e3 : 0 ≤ ru md * (9 / 100 * arctan z) := by positivity
  rw [e1] at k4
  rw [e2]
  linarith

/-- double `atan` of a finite argument -/
theorem atanDouble_spec (fused : Bool) (md : Mode) {x : ℕ} (hx : binary64.Finite x) :
    binary64.Finite (CC.atanDouble fused md x) ∧ |binary64.val (CC.atanDouble fused md x) - arctan (binary64.val x)| ≤ ru md * (18 * |arctan (binary64.val x)|) + 3 * eta := by
  unfold CC.atanDouble
  rcases le_or_gt |binary64.val x| 1 with h | h
  · obtain ⟨-, a, b, -⟩ := atanStep_le_one fused md (CC.atanStep fused md fun y => y) hx h
    exact ⟨a, b⟩
  obtain ⟨fa, va, -⟩ := C03_fabs_value binary64 hx
  have f1 : binary64.Finite 0x3FF0000000000000 := by decide +kernel
  have hgt : binary64.hgt (CC.abs binary64 x) 0x3FF0000000000000 = true := by rw [hgt_finite' fa f1, va, val_one64]; exact h
  have hu := ru_pos md
  have hη0 := eta_pos
  have s := atan_small fused md (fun y => y) fa (by rw [va]; exact h)
  dsimp only at s
  rw [va, one_div, Real.arctan_inv_of_pos (by linarith)] at s
  have c0 : ¬ binary64.heq x 0 = true := by
    rw [CC.heq_finite binary64 hx val_zero64.1, val_zero64.2]; intro e; rw [e, abs_zero] at h; linarith
  rw [CC.atanStep]
  dsimp only
  rw [(not_nan_inf hx).1, (not_nan_inf fa).2]
  simp only [Bool.false_eq_true, if_false]
  rw [if_neg c0, if_pos hgt, pi_div_two]
  have hpi1 := Real.pi_gt_d20
  have hpi2 := Real.pi_lt_d20
  have hA1 : π / 4 ≤ arctan |binary64.val x| := by rw [← Real.arctan_one]; exact Real.arctan_le_arctan_iff.2 h.le
  have hA2 := Real.arctan_lt_pi_div_two |binary64.val x|
  have hAe : arctan |binary64.val x| = |arctan (binary64.val x)| := by
    rcases le_total 0 (binary64.val x) with h | h
    · rw [abs_of_nonneg h, abs_of_nonneg (Real.arctan_nonneg.2 h)]
    · rw [abs_of_nonpos h, abs_of_nonpos (by rw [← neg_nonneg, ← Real.arctan_neg]; exact Real.arctan_nonneg.2 (by linarith)), Real.arctan_neg]
  by_cases c2 : binary64.hlt x 0 = true
  · rw [if_pos c2]
    rw [CC.hlt_finite binary64 hx val_zero64.1, val_zero64.2] at c2
    have r := Ap.add (ap_pi2 md).neg s (S := arctan |binary64.val x|) (B := arctan |binary64.val x|) (e := 18 * arctan |binary64.val x|)
      (by rw [show -(π / 2) + (π / 2 - arctan |binary64.val x|) = -arctan |binary64.val x| by ring, abs_neg, abs_of_nonneg (by linarith [Real.pi_pos])]) le_rfl
      (by norm_num at *; linarith) (by norm_num at *; linarith)
    refine ⟨r.fin, ?_⟩
    have := r.err
    rw [← hAe]
    rw [show -(π / 2) + (π / 2 - arctan |binary64.val x|) = arctan (binary64.val x) by rw [abs_of_neg c2, Real.arctan_neg]; ring] at this
    linarith
  · rw [if_neg c2]
    rw [CC.hlt_finite binary64 hx val_zero64.1, val_zero64.2, not_lt] at c2
    have r := Ap.sub (ap_pi2 md) s (S := arctan |binary64.val x|) (B := arctan |binary64.val x|) (e := 18 * arctan |binary64.val x|)
      (by rw [sub_sub_cancel, abs_of_nonneg (by linarith [Real.pi_pos])]) le_rfl
      (by norm_num at *; linarith) (by norm_num at *; linarith)
    refine ⟨r.fin, ?_⟩
    have := r.err
    rw [← hAe]
    rw [sub_sub_cancel] at this
    rw [abs_of_nonneg c2] at this ⊢
    linarith

end Verif
