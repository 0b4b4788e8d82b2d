import Verif.Lemmas.Exp10
import Verif.Props.SinCos

/-!
# Properties of the double exponential (C62)

`md` is the rounding mode.  The bounds hold for every finite double, including the range in which the result is subnormal.
`0x40862E42FEFA39EF` is 709.782712893384 (the greatest double below `1024 · log 2`).
-/

namespace Verif
open Fmt Real

theorem ru_K (md : Mode) : ru md * expK md = if md = .nearest then 1.06 / 2 ^ 53 else 1.3 / 2 ^ 52 := by
  unfold ru expK; split_ifs <;> norm_num
theorem ru_S (md : Mode) : ru md * (expS md * (2 : ℝ) ^ (-1022 : ℤ)) = (if md = .nearest then 0.51 else 1.01) * (2 : ℝ) ^ (-1074 : ℤ) := by
  have e : (2 : ℝ) ^ (-1022 : ℤ) = 2 ^ 52 * (2 : ℝ) ^ (-1074 : ℤ) := by
    rw [← zpow_natCast, ← zpow_add₀ (by norm_num)]; rfl
  rw [e]
  generalize (2 : ℝ) ^ (-1074 : ℤ) = t
  unfold ru expS; split_ifs <;> ring

theorem exp_tiny (md : Mode) {x : ℕ} (hx : binary64.Finite x) (h : |binary64.val x| < 1 / 2 ^ 54) :
    binary64.Finite (binary64.hadd md 0x3FF0000000000000 x) ∧ 0 ≤ binary64.val (binary64.hadd md 0x3FF0000000000000 x) ∧
      |binary64.val (binary64.hadd md 0x3FF0000000000000 x) - exp (binary64.val x)| ≤ ru md * (expK md * exp (binary64.val x)) := by
  have f1 : binary64.Finite 0x3FF0000000000000 := by decide +kernel
  have R := binary64.hadd_spec md f1 hx
  rw [val_one64] at R
  have c : (1 : ℝ) / 2 ^ 54 ≤ 1 / 1000 := by norm_num
  have h2 := abs_lt.1 h
  have hv : |1 + binary64.val x| = 1 + binary64.val x := abs_of_pos (by linarith)
  obtain ⟨fr, er⟩ := err64 R (by rw [hv]; have : (2 : ℝ) ≤ 2 ^ 200 := by norm_num
                                 linarith)
  rw [hv] at er
  have hu := ru_pos md
  have hu2 := ru_le md
  have hu3 := ru_ge md
  have hη := eta_le
  have hk := expK_ge1 md
  have h3 := Real.abs_exp_sub_one_sub_id_le (x := binary64.val x) (by linarith)
  have h4 : binary64.val x ^ 2 ≤ (1 / 2 ^ 54) ^ 2 := by rw [← sq_abs]; exact pow_le_pow_left₀ (abs_nonneg _) h.le 2
  have h5 : |exp (binary64.val x) - (1 + binary64.val x)| ≤ (1 / 2 ^ 54) ^ 2 := by
    rw [show exp (binary64.val x) - (1 + binary64.val x) = exp (binary64.val x) - 1 - binary64.val x by ring]; linarith
  have h6 := (abs_le.1 h5).1
  have h7 : |binary64.val (binary64.hadd md 0x3FF0000000000000 x) - exp (binary64.val x)| ≤ ru md * (1 + binary64.val x) + eta + (1 / 2 ^ 54) ^ 2 :=
    abs_tri er (by rw [abs_sub_comm]; exact h5)
  have c2 : ((1 : ℝ) / 2 ^ 54) ^ 2 ≤ 1 / 1000 := by norm_num
  have h8 : ru md * (106 / 100 * (998 / 1000)) ≤ ru md * (expK md * exp (binary64.val x)) :=
    mul_le_mul_of_nonneg_left (mul_le_mul hk (by linarith) (by norm_num) (by linarith)) hu.le
  have h9 : ru md * (1 + binary64.val x) ≤ ru md * (1001 / 1000) := mul_le_mul_of_nonneg_left (by linarith) hu.le
  have c3 : (1 : ℝ) / 2 ^ 200 + (1 / 2 ^ 54) ^ 2 ≤ 1 / 2 ^ 53 * (1 / 1000) := by norm_num
  have c4 : (1 : ℝ) / 2 ^ 52 ≤ 1 / 1000 := by norm_num
  have h10 : ru md * (1 + binary64.val x) ≤ 1 / 2 ^ 52 * 2 := mul_le_mul hu2 (by linarith) (by linarith) (by positivity)
  refine ⟨fr, ?_, by linarith⟩
  have := (abs_le.1 er).1
  have c5 : (1 : ℝ) / 2 ^ 200 ≤ 1 / 1000 := by norm_num
  linarith

theorem expDouble_cases (md : Mode) {x : ℕ} (hx : binary64.Finite x) :
    (binary64.val x ≤ binary64.val 0x40862E42FEFA39EF →
      binary64.Finite (CC.expDouble md x) ∧ 0 ≤ binary64.val (CC.expDouble md x) ∧
        |binary64.val (CC.expDouble md x) - exp (binary64.val x)| ≤ ru md * (expK md * exp (binary64.val x) + expS md * 2 ^ (-1022 : ℤ))) ∧
    (binary64.val 0x40862E42FEFA39EF < binary64.val x → CC.expDouble md x = binary64.ovf md false) := by
  have hT := finite_bexp hx
  have hS0 : 0 ≤ ru md * (expS md * 2 ^ (-1022 : ℤ)) := mul_nonneg (ru_pos md).le (mul_nonneg (by have := expS_ge md; linarith) (two_zpow_pos _).le)
  have hmx : (700 : ℝ) ≤ binary64.val 0x40862E42FEFA39EF := by rw [val_expMax]; norm_num
  unfold CC.expDouble
  simp only [absTop_eq]
  by_cases h1 : binary64.bexp x < 0x3c9
  · rw [if_pos (by omega)]
    have h2 := abs_lt_of_bexp (by norm_num) h1
    have e : (2 : ℝ) ^ (((0x3c9 : ℕ) : ℤ) - 1023) = 1 / 2 ^ 54 := by
      rw [show ((0x3c9 : ℕ) : ℤ) - 1023 = -54 by norm_num, zpow_neg, one_div]; norm_cast
    rw [e] at h2
    obtain ⟨a1, a2, a3⟩ := exp_tiny md hx h2
    refine ⟨fun _ => ⟨a1, a2, by rw [mul_add]; linarith⟩, fun h => ?_⟩
    exfalso
    have := (abs_lt.1 h2).2
    have c : (1 : ℝ) / 2 ^ 54 ≤ 1 := by norm_num
    linarith
  rw [if_neg (by omega)]
  by_cases h3 : 0x409 ≤ binary64.bexp x
  · rw [if_pos (by omega)]
    have h4 := (bexp_ge (x := x) (by norm_num)).1 h3
    have e : (2 : ℝ) ^ (((0x409 : ℕ) : ℤ) - 1023) = 1024 := by
      rw [show ((0x409 : ℕ) : ℤ) - 1023 = 10 by norm_num]; norm_num
    rw [e] at h4
    rw [if_neg (by
      intro hc; rw [hc] at hT; revert hT; decide +kernel), if_neg (by omega)]
    by_cases hs : x >>> 63 ≠ 0
    · rw [if_pos hs]
      have hneg : binary64.val x < 0 := by
        have hs' : binary64.sgn x = true := by
          rw [Nat.shiftRight_eq_div_pow] at hs
          unfold sgn
          have : binary64.E + binary64.F = 63 := rfl
          rw [this, decide_eq_true_iff]
          omega
        have := binary64.val_eq x
        rw [hs'] at this
        rcases lt_or_eq_of_le (show binary64.val x ≤ 0 by
          rw [this]; simp only [sg, if_true]
          have : (0 : ℝ) ≤ (binary64.umag (binary64.mag x) : ℝ) * binary64.minSub := mul_nonneg (Nat.cast_nonneg _) binary64.minSub_pos.le
          linarith) with h | h
        · exact h
        · rw [h] at h4; norm_num at h4
      rw [abs_of_neg hneg] at h4
      refine ⟨fun _ => ?_, fun h => by exfalso; linarith⟩
      have f0 : binary64.Finite (binary64.hmul md 0x1000000000000000 0x1000000000000000) := by cases md <;> decide +kernel
      have hv : binary64.val (binary64.hmul md 0x1000000000000000 0x1000000000000000) = if md = .up then binary64.minSub else 0 := by
        have hup : binary64.hmul .up 0x1000000000000000 0x1000000000000000 = 1 := by decide +kernel
        have hz : ∀ m : Mode, m ≠ .up → binary64.hmul m 0x1000000000000000 0x1000000000000000 = 0 := by
          intro m hm; cases m <;> first | decide +kernel | exact absurd rfl hm
        split_ifs with hm
        · rw [hm, hup, binary64.val_eq]
          have : binary64.umag (binary64.mag 1) = 1 := by decide +kernel
          rw [this]
          have : binary64.sgn 1 = false := by decide +kernel
          rw [this]; simp [sg]
        · rw [hz md hm]; exact (binary64.val_eq_zero_iff _).2 (by decide +kernel)
      have hms := binary64.minSub_pos
      have hEx := Real.exp_pos (binary64.val x)
      have hsm : exp (binary64.val x) ≤ 1 / 2 * eta := by
        refine le_trans (exp_le_zpow (-1400) (by have := log2_bd.2; push_cast; linarith)) ?_
        rw [eta_eq, show (-1400 : ℤ) = -326 + -1074 from rfl, zpow_add₀ (by norm_num)]
        refine mul_le_mul_of_nonneg_right ?_ (two_zpow_pos _).le
        refine le_trans (two_zpow_le (show (-326 : ℤ) ≤ -1 by norm_num)) (by norm_num)
      refine ⟨f0, by rw [hv]; split_ifs <;> linarith, ?_⟩
      rw [mul_add, ru_S, hv, ← eta_eq]
      have hkk : 0 ≤ ru md * (expK md * exp (binary64.val x)) := mul_nonneg (ru_pos md).le (mul_nonneg (by have := expK_ge1 md; linarith) hEx.le)
      have hη := eta_pos
      have hem : binary64.minSub = eta := rfl
      rw [hem]
      by_cases hm : md = .up
      · rw [if_pos hm, if_neg (by rw [hm]; decide), abs_of_nonneg (by linarith)]
        linarith
      · rw [if_neg hm, zero_sub, abs_neg, abs_of_pos hEx]
        split_ifs <;> linarith
    · rw [if_neg hs]
      refine ⟨fun h => ?_, fun _ => by cases md <;> decide +kernel⟩
      exfalso
      have hpos : 0 ≤ binary64.val x := by
        have hs' : binary64.sgn x = false := by
          rw [Nat.shiftRight_eq_div_pow] at hs
          unfold sgn
          have : binary64.E + binary64.F = 63 := rfl
          rw [this, decide_eq_false_iff_not]
          omega
        rw [binary64.val_eq, hs']; simp only [sg, Bool.false_eq_true, if_false, one_mul]
        exact mul_nonneg (Nat.cast_nonneg _) binary64.minSub_pos.le
      rw [abs_of_nonneg hpos] at h4
      rw [val_expMax] at h
      norm_num at h
      linarith
  rw [if_neg (by omega)]
  have h4 := abs_lt_of_bexp (x := x) (by norm_num) (show binary64.bexp x < 0x409 by omega)
  have e : (2 : ℝ) ^ (((0x409 : ℕ) : ℤ) - 1023) = 1024 := by
    rw [show ((0x409 : ℕ) : ℤ) - 1023 = 10 by norm_num]; norm_num
  rw [e] at h4
  have e2 : (2 : ℝ) ^ (((0x408 : ℕ) : ℤ) - 1023) = 512 := by
    rw [show ((0x408 : ℕ) : ℤ) - 1023 = 9 by norm_num]; norm_num
  by_cases h5 : 0x408 ≤ binary64.bexp x
  · have h6 := (bexp_ge (x := x) (by norm_num)).1 h5
    rw [e2] at h6
    rcases le_abs.1 h6 with h7 | h7
    · obtain ⟨tmp, sb, ki, p1, p2, p3⟩ := exp_special_pos md hx h4.le h7
      rw [p1]
      simp only []
      rw [if_pos (by omega)]
      exact ⟨p2, p3⟩
    · obtain ⟨tmp, sb, ki, p1, p2⟩ := exp_special_neg md hx h4.le (by linarith)
      rw [p1]
      simp only []
      rw [if_pos (by omega)]
      exact ⟨fun _ => p2, fun h => by exfalso; linarith⟩
  · have h6 := abs_lt_of_bexp (x := x) (by norm_num) (show binary64.bexp x < 0x408 by omega)
    rw [e2] at h6
    obtain ⟨tmp, sb, ki, p1, p2, p3, p4⟩ := exp_normal md hx h6
    rw [p1]
    simp only []
    rw [if_neg (by omega)]
    refine ⟨fun _ => ⟨p2, p3, by rw [mul_add]; linarith⟩, fun h => ?_⟩
    exfalso
    have := (abs_lt.1 h6).2
    linarith

/-- **C62.** `exp(double)`: for every finite argument up to 709.782712893384 and every rounding mode the result is finite, not negative, and differs from
`e^x` by a relative error of at most 1.06 · 2^-53 (in directed modes 1.3 · 2^-52) plus, where results are subnormal, the rounding to a multiple of
`2^-1074`. -/
theorem C62_exp_accuracy (md : Mode) {x : ℕ} (hx : binary64.Finite x) (hle : binary64.val x ≤ binary64.val 0x40862E42FEFA39EF) :
    binary64.Finite (CC.expDouble md x) ∧ 0 ≤ binary64.val (CC.expDouble md x) ∧
      |binary64.val (CC.expDouble md x) - Real.exp (binary64.val x)| ≤
        (if md = .nearest then 1.06 / 2 ^ 53 else 1.3 / 2 ^ 52) * Real.exp (binary64.val x) + (if md = .nearest then 0.51 else 1.01) * (2 : ℝ) ^ (-1074 : ℤ) := by
  obtain ⟨h1, h2, h3⟩ := (expDouble_cases md hx).1 hle
  refine ⟨h1, h2, le_trans h3 (le_of_eq ?_)⟩
  rw [mul_add, ru_S, ← mul_assoc, ru_K]

-- exp(1), exp(-740) (subnormal), exp(709.78...)
example : binary64.Finite 0x3FF0000000000000 ∧ CC.expDouble .nearest 0x3FF0000000000000 = 0x4005BF0A8B145769 := by decide +kernel
example : binary64.Finite 0xC087200000000000 ∧ CC.expDouble .nearest 0xC087200000000000 = 85 := by decide +kernel
example : binary64.Finite 0x40862E42FEFA39EF ∧ CC.expDouble .nearest 0x40862E42FEFA39EF = 0x7FEFFFFFFFFFFF2A := by decide +kernel

/-- **C62.** Above 709.782712893384 the exponential is at least `2^1024`, and the result is the overflow result of the rounding mode. -/
theorem C62_exp_overflow (md : Mode) {x : ℕ} (hx : binary64.Finite x) (hgt : binary64.val 0x40862E42FEFA39EF < binary64.val x) :
    (2 : ℝ) ^ (1024 : ℤ) < Real.exp (binary64.val x) ∧
      CC.expDouble md x = if md = .nearest ∨ md = .up then 0x7FF0000000000000 else 0x7FEFFFFFFFFFFFFF := by
  constructor
  · rw [← exp_int_log]
    refine Real.exp_lt_exp.2 ?_
    have h1 := expMax_next hx hgt
    have h2 := expMax_log.2
    push_cast
    linarith
  · rw [(expDouble_cases md hx).2 hgt]
    cases md <;> decide +kernel

example : binary64.Finite 0x40862E42FEFA39F0 ∧ CC.expDouble .nearest 0x40862E42FEFA39F0 = 0x7FF0000000000000 ∧
    CC.expDouble .down 0x40862E42FEFA39F0 = 0x7FEFFFFFFFFFFFFF := by decide +kernel

/-- **C62.** Special arguments: `exp(±0) = 1`, `exp(+∞) = +∞`, `exp(-∞) = +0`, and a NaN gives a NaN. -/
theorem C62_exp_special (md : Mode) :
    CC.expDouble md 0 = 0x3FF0000000000000 ∧ CC.expDouble md 0x8000000000000000 = 0x3FF0000000000000 ∧
      CC.expDouble md 0x7FF0000000000000 = 0x7FF0000000000000 ∧ CC.expDouble md 0xFFF0000000000000 = 0 ∧
      ∀ x, binary64.IsNaN x → binary64.IsNaN (CC.expDouble md x) := by
  refine ⟨by cases md <;> decide +kernel, by cases md <;> decide +kernel, by cases md <;> decide +kernel, by cases md <;> decide +kernel, ?_⟩
  intro x hx
  have hT : binary64.bexp x = 2047 := hx.2.1
  unfold CC.expDouble
  simp only [absTop_eq, hT]
  rw [if_neg (by omega), if_pos (by omega), if_neg (by
    intro hc; rw [hc] at hx; revert hx; decide +kernel), if_pos (by omega)]
  unfold hadd
  rw [if_pos (by rw [(binary64.nanB_iff hx.1).2 hx]; simp)]
  exact binary64.isNaN_qnan

example : binary64.IsNaN 0x7FF8000000000001 := by decide +kernel

end Verif
