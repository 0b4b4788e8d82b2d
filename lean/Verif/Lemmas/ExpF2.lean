import Verif.Lemmas.ExpF1

/-!
# The float exponential: from the double intermediate result to the float
-/

namespace Verif
open Fmt Real

/-- share of the least subnormal in one rounding -/
noncomputable def hf (m : Mode) : ℝ := if m = .nearest then 1 / 2 else 1
theorem hf_nonneg (m : Mode) : 0 ≤ hf m := by unfold hf; split_ifs <;> norm_num
theorem hf_le (m : Mode) : hf m ≤ 1 := by unfold hf; split_ifs <;> norm_num

theorem err32m {m : Mode} {zs : Bool} {v : ℝ} {b : ℕ} (R : binary32.RoundsTo m zs v b) (hv' : |v| ≤ binary32.maxFin) :
    binary32.Finite b ∧ |binary32.val b - v| ≤ ruf m * |v| + hf m * etaf := by
  refine ⟨(RoundsTo.ulp R hv').1, ?_⟩
  have hF : (2 : ℝ) ^ (-(binary32.F : ℤ)) = 1 / 2 ^ 23 := by rw [zpow_neg, one_div, zpow_natCast]; rfl
  have hg : binary32.gapBound v ≤ 1 / 2 ^ 23 * |v| + etaf := by
    unfold gapBound; rw [hF]
    refine max_le ?_ ?_
    · have := etaf_pos; linarith
    · have : (0 : ℝ) ≤ 1 / 2 ^ 23 * |v| := by positivity
      change etaf ≤ _; linarith
  unfold ruf hf
  split_ifs with h
  · subst h
    have h1 := RoundsTo.err_nearest R hv'
    have e : (1 : ℝ) / 2 ^ 24 * |v| = 1 / 2 ^ 23 * |v| / 2 := by ring
    rw [e]; linarith
  · rw [one_mul]
    exact le_trans (RoundsTo.err R hv') hg

theorem maxFin32 : binary32.maxFin = (2 : ℝ) ^ 128 - 2 ^ 104 := by
  have h1 := binary32.maxFin_add
  have e1 : ((binary32.bias : ℤ) + 1) = 128 := by decide
  have e2 : ((binary32.bias : ℤ) - binary32.F) = 104 := by decide
  rw [e1, e2] at h1
  have a1 : (2 : ℝ) ^ (128 : ℤ) = 2 ^ 128 := by norm_cast
  have a2 : (2 : ℝ) ^ (104 : ℤ) = 2 ^ 104 := by norm_cast
  rw [a1, a2] at h1
  linarith

theorem nonneg32 {m : Mode} {zs : Bool} {v : ℝ} {b : ℕ} (R : binary32.RoundsTo m zs v b) (hv : 0 ≤ v) (hv' : v ≤ binary32.maxFin) : 0 ≤ binary32.val b := by
  have f0 : binary32.Finite 0 := by decide +kernel
  have v0 : binary32.val 0 = 0 := (binary32.val_eq_zero_iff _).2 (by decide +kernel)
  have f1 : binary32.Finite 0x7F7FFFFF := by decide +kernel
  have v1 : binary32.val 0x7F7FFFFF = (2 : ℝ) ^ 128 - 2 ^ 104 := by
    have h := CC.val_normal binary32 (x := 0x7F7FFFFF) (k := 127) (by decide +kernel) (by decide +kernel)
    rw [CC.val_eq_sg_abs binary32 0x7F7FFFFF, h]
    have s : binary32.sgn 0x7F7FFFFF = false := by decide +kernel
    have fr : 2 ^ binary32.F + binary32.frac 0x7F7FFFFF = 2 ^ 24 - 1 := by decide +kernel
    have e : (127 : ℤ) - (binary32.F : ℤ) = ((104 : ℕ) : ℤ) := by decide
    rw [s, fr, e, zpow_natCast]
    norm_num [sg]
  have := (RoundsTo.between R f0 f1 (by rw [v0]; exact hv) (by rw [v1, ← maxFin32]; exact hv')).2.1
  rwa [v0] at this

/-- relative error of the float result, in units of `ruf` -/
noncomputable def expfK (m : Mode) : ℝ := if m = .nearest then 102 / 100 else 110 / 100

theorem expf_delta (m : Mode) : 1022 / 1000 * pf m + 1 / 2 ^ 42 ≤ ruf m * (expfK m - 1001 / 1000) := by
  unfold pf ruf expfK; split_ifs <;> norm_num

theorem expf_final {m : Mode} {D E : ℝ} {b : ℕ} {zs : Bool} (R : binary32.RoundsTo m zs D b) (hE : 0 < E) (hD : |D - E| ≤ E * (1022 / 1000 * pf m + 1 / 2 ^ 42))
    (hmax : E ≤ 2 ^ 128 * (1 - 1 / 2 ^ 20)) :
    binary32.Finite b ∧ 0 ≤ binary32.val b ∧ |binary32.val b - E| ≤ ruf m * (expfK m * E) + hf m * etaf := by
  have hp := pf_le m
  have hp0 := pf_nonneg m
  have hδ : 1022 / 1000 * pf m + 1 / 2 ^ 42 ≤ 1 / 2 ^ 22 := by
    have c : (1022 : ℝ) / 1000 * (1125 / 10 ^ 11) + 1 / 2 ^ 42 ≤ 1 / 2 ^ 22 := by norm_num
    linarith
  have hd := expf_delta m
  generalize 1022 / 1000 * pf m + 1 / 2 ^ 42 = δ at *
  have hD' := abs_le.1 hD
  have h1 : E * δ ≤ E * (1 / 2 ^ 22) := mul_le_mul_of_nonneg_left hδ hE.le
  have hD0 : 0 ≤ D := by
    have : E * (1 / 2 ^ 22) ≤ E * 1 := mul_le_mul_of_nonneg_left (by norm_num) hE.le
    linarith
  have hDm : D ≤ binary32.maxFin := by
    rw [maxFin32]
    have h2 : E * (1 + 1 / 2 ^ 22) ≤ 2 ^ 128 * (1 - 1 / 2 ^ 20) * (1 + 1 / 2 ^ 22) := mul_le_mul_of_nonneg_right hmax (by positivity)
    have c : (2 : ℝ) ^ 128 * (1 - 1 / 2 ^ 20) * (1 + 1 / 2 ^ 22) ≤ 2 ^ 128 - 2 ^ 104 := by norm_num
    linarith
  obtain ⟨f, e⟩ := err32m R (by rw [abs_of_nonneg hD0]; exact hDm)
  rw [abs_of_nonneg hD0] at e
  refine ⟨f, nonneg32 R hD0 hDm, ?_⟩
  have hu := ruf_pos m
  have h3 := abs_tri e hD
  have h4 : ruf m * D ≤ ruf m * (E * (1001 / 1000)) := mul_le_mul_of_nonneg_left (by
    have : E * (1 / 2 ^ 22) ≤ E * (1 / 1000) := mul_le_mul_of_nonneg_left (by norm_num) hE.le
    linarith) hu.le
  have h5 : E * δ ≤ E * (ruf m * (expfK m - 1001 / 1000)) := mul_le_mul_of_nonneg_left hd hE.le
  linarith

theorem val_invf : binary64.val CC.expInvLn2f = 0x171547652B82FE / 2 ^ 47 := by
  rw [show CC.expInvLn2f = 0x40471547652B82FE from rfl, lit64 false 0x171547652B82FE 47 (by decide +kernel) (by decide +kernel) (by decide +kernel) (by decide +kernel)]; norm_num [sg]

theorem invf_err : |binary64.val CC.expInvLn2f * (1 / 32) * log 2 - 1| ≤ 1 / 2 ^ 53 := by
  obtain ⟨l1, l2⟩ := ln2_bounds
  have g1 : (69314718055994530941 : ℝ) / 10 ^ 20 ≤ log 2 := le_trans (by norm_num) l1
  have g2 : log 2 ≤ (69314718055994530942 : ℝ) / 10 ^ 20 := le_trans l2 (by norm_num)
  rw [val_invf, abs_le]
  generalize log 2 = L at *
  norm_num at g1 g2 ⊢
  constructor <;> linarith

/-- the double that is rounded to give the float `exp` -/
theorem expfD (md : Mode) {x : ℕ} (hx : binary32.Finite x) (hb : |binary32.val x| ≤ 104) :
    binary64.Finite (binary64.hmul md (CC.expfParts md (binary64.hcvt binary32 md x)).1 (CC.expfParts md (binary64.hcvt binary32 md x)).2) ∧
      |binary64.val (binary64.hmul md (CC.expfParts md (binary64.hcvt binary32 md x)).1 (CC.expfParts md (binary64.hcvt binary32 md x)).2) - exp (binary32.val x)| ≤
        exp (binary32.val x) * (1022 / 1000 * pf md + 1 / 2 ^ 42) := by
  obtain ⟨fx, vx⟩ := cvt_up md hx
  generalize binary64.hcvt binary32 md x = xd at *
  rw [← vx] at hb ⊢
  have fi : binary64.Finite CC.expInvLn2f := by decide +kernel
  have bi : |binary64.val CC.expInvLn2f| ≤ 462 / 10 := by rw [val_invf, abs_le]; constructor <;> norm_num
  obtain ⟨fz, ez⟩ := st_mul md fi fx (abs_mul_le bi hb) (by norm_num)
  have hu := ru_pos md
  have hu2 := ru_le md
  have ez' : |binary64.val (binary64.hmul md CC.expInvLn2f xd) - binary64.val CC.expInvLn2f * binary64.val xd| ≤ 1 / 2 ^ 39 := by
    refine le_trans ez ?_
    refine le_trans (mul_le_mul_of_nonneg_right hu2 (by positivity)) ?_
    norm_num
  have hzb := abs_near ez' (abs_mul_le bi hb)
  have core := expf_core md 0 (z := binary64.hmul md CC.expInvLn2f xd) (sh := CC.expShift) (a0 := CC.expCf0) (a1 := CC.expCf1) (a2 := CC.expCf2) (w := 1 / 32) (by norm_num) (by decide +kernel)
    (by norm_num) (by norm_num) (by norm_num) (by decide +kernel) (by decide +kernel) (by decide +kernel) val_h0 val_h1 val_h2 fz
    (le_trans hzb (by norm_num)) (by
      rw [abs_mul, abs_of_pos (show (0 : ℝ) < 1 / 32 by norm_num)]
      have c : (462 : ℝ) / 10 * 104 + 1 / 2 ^ 39 ≤ 9000 := by norm_num
      linarith)
  have hθ : |binary64.val (binary64.hmul md CC.expInvLn2f xd) * (1 / 32) * log 2 - binary64.val xd| ≤ 1 / 2 ^ 43 := by
    obtain ⟨l1, l2⟩ := log2_bd
    have e : binary64.val (binary64.hmul md CC.expInvLn2f xd) * (1 / 32) * log 2 - binary64.val xd =
      (binary64.val (binary64.hmul md CC.expInvLn2f xd) - binary64.val CC.expInvLn2f * binary64.val xd) * ((1 / 32) * log 2) +
        (binary64.val CC.expInvLn2f * (1 / 32) * log 2 - 1) * binary64.val xd := by ring
    rw [e]
    refine le_trans (abs_add_le' (abs_mul_le ez' (show |1 / 32 * log 2| ≤ 22 / 1000 by rw [abs_of_pos (by linarith)]; linarith)) (abs_mul_le invf_err hb)) ?_
    norm_num
  unfold CC.expfParts
  simp only
  change binary64.Finite (binary64.hmul md (sBitsf _) _) ∧ |binary64.val (binary64.hmul md (sBitsf _) _) - _| ≤ _
  obtain ⟨c1, c2, c3⟩ := core
  generalize sBitsf (binary64.hadd md (binary64.hmul md CC.expInvLn2f xd) CC.expShift) = S at *
  generalize binary64.hadd md (binary64.hmul md (binary64.hadd md _ _) _) _ = Y at *
  generalize binary64.val (binary64.hmul md CC.expInvLn2f xd) * (1 / 32) * log 2 = t at *
  generalize binary64.val xd = X at *
  have hp := pf_le md
  have hp0 := pf_nonneg md
  have hX := Real.exp_pos X
  have ht := Real.exp_pos t
  have hr : |exp t - exp X| ≤ exp X * (1 / 2 ^ 42 * (51 / 100)) := by
    have e : exp t - exp X = exp X * (exp (t - X) - 1) := by rw [mul_sub, ← Real.exp_add]; ring_nf
    rw [e, abs_mul, abs_of_pos hX]
    refine mul_le_mul_of_nonneg_left ?_ hX.le
    have h1 := Real.abs_exp_sub_one_sub_id_le (x := t - X) (le_trans hθ (by norm_num))
    have h2 : (t - X) ^ 2 ≤ (1 / 2 ^ 43) ^ 2 := by rw [← sq_abs]; exact pow_le_pow_left₀ (abs_nonneg _) hθ 2
    have h3 := abs_near (le_trans h1 h2) hθ
    refine le_trans h3 ?_
    norm_num
  have hX1 : exp X ≤ 2 ^ 151 := by
    obtain ⟨l1, l2⟩ := log2_bd
    have := exp_le_zpow 151 (show X ≤ ((151 : ℤ) : ℝ) * log 2 by push_cast; have := (abs_le.1 hb).2; linarith)
    exact_mod_cast this
  have hX2 : 1 / 2 ^ 151 ≤ exp X := by
    obtain ⟨l1, l2⟩ := log2_bd
    have h : ((-151 : ℤ) : ℝ) * log 2 ≤ X := by push_cast; have := (abs_le.1 hb).1; linarith
    have := Real.exp_le_exp.2 h
    rw [exp_int_log] at this
    refine le_trans (le_of_eq ?_) this
    rw [zpow_neg, one_div]; norm_cast
  have hr' := abs_le.1 hr
  have htX : exp t ≤ exp X * (1 + 1 / 2 ^ 40) := by
    have : exp X * (1 / 2 ^ 42 * (51 / 100)) ≤ exp X * (1 / 2 ^ 40) := mul_le_mul_of_nonneg_left (by norm_num) hX.le
    linarith
  -- the product
  have hSY : |binary64.val S * binary64.val Y| ≤ exp X * 2 := by
    have h3 := abs_near c3 (abs_of_pos ht).le
    refine le_trans h3 ?_
    have h4 : exp t * (1022 / 1000 * pf md + 1 / 2 ^ 45) ≤ exp t * (1 / 100) := mul_le_mul_of_nonneg_left (by
      have c : (1022 : ℝ) / 1000 * (1125 / 10 ^ 11) + 1 / 2 ^ 45 ≤ 1 / 100 := by norm_num
      linarith) ht.le
    have h5 : exp X * (1 + 1 / 2 ^ 40) ≤ exp X * (3 / 2) := mul_le_mul_of_nonneg_left (by norm_num) hX.le
    linarith
  obtain ⟨g1, g2⟩ := err64 (binary64.hmul_spec md c1 c2) (le_trans hSY (by
    have c : (2 : ℝ) ^ 151 * 2 ≤ 2 ^ 200 := by norm_num
    linarith))
  refine ⟨g1, ?_⟩
  have h6 := abs_tri (abs_tri g2 c3) hr
  refine le_trans h6 ?_
  have h7 : ru md * |binary64.val S * binary64.val Y| ≤ 1 / 2 ^ 52 * (exp X * 2) := mul_le_mul hu2 hSY (abs_nonneg _) (by positivity)
  have h8 : eta ≤ exp X * (1 / 2 ^ 49) := by
    refine le_trans eta_le ?_
    have : (1 : ℝ) / 2 ^ 151 * (1 / 2 ^ 49) ≤ exp X * (1 / 2 ^ 49) := mul_le_mul_of_nonneg_right hX2 (by positivity)
    have c : (1 : ℝ) / 2 ^ 200 ≤ 1 / 2 ^ 151 * (1 / 2 ^ 49) := by norm_num
    linarith
  have h9 : exp t * (1022 / 1000 * pf md + 1 / 2 ^ 45) ≤ exp X * (1 + 1 / 2 ^ 40) * (1022 / 1000 * pf md + 1 / 2 ^ 45) := mul_le_mul_of_nonneg_right htX (by positivity)
  have h10 : exp X * ((1 + 1 / 2 ^ 40) * (1022 / 1000 * pf md + 1 / 2 ^ 45) + 1 / 2 ^ 42 * (51 / 100) + 1 / 2 ^ 51 + 1 / 2 ^ 49) ≤ exp X * (1022 / 1000 * pf md + 1 / 2 ^ 42) :=
    mul_le_mul_of_nonneg_left (by
      have c : (1 : ℝ) / 2 ^ 40 * (1022 / 1000 * (1125 / 10 ^ 11)) + (1 + 1 / 2 ^ 40) * (1 / 2 ^ 45) + 1 / 2 ^ 42 * (51 / 100) + 1 / 2 ^ 51 + 1 / 2 ^ 49 ≤ 1 / 2 ^ 42 := by norm_num
      have c2 : (1 : ℝ) / 2 ^ 40 * (1022 / 1000 * pf md) ≤ 1 / 2 ^ 40 * (1022 / 1000 * (1125 / 10 ^ 11)) := mul_le_mul_of_nonneg_left (by linarith) (by positivity)
      linarith) hX.le
  have e8 : (1 : ℝ) / 2 ^ 52 * (exp X * 2) = exp X * (1 / 2 ^ 51) := by ring
  rw [e8] at h7
  linarith

end Verif
