import Verif.Lemmas.Odd
import Verif.Lemmas.Basic
import Verif.Props.Sqrt

/-!
# C26 (integer tests) and C25 (special cases of `pow`), binary64
-/

namespace Verif
open Fmt

/-- `y` is a finite datum whose value is an odd integer. -/
def OddInt (y : ℕ) : Prop := binary64.Finite y ∧ ∃ k : ℤ, binary64.val y = 2 * k + 1

/-- `y` is a finite datum whose value is an integer. -/
def IsInt (y : ℕ) : Prop := binary64.Finite y ∧ ∃ k : ℤ, binary64.val y = k

theorem normal_val_odd {x : ℕ} (hb : binary64.bexp x ≠ 0) {t q : ℕ} (h : 2 ^ 52 + binary64.frac x = 2 ^ t * (2 * q + 1)) :
    ∃ o : ℤ, o % 2 = 1 ∧ binary64.val x = (o : ℝ) * (2 : ℝ) ^ ((binary64.bexp x : ℤ) + t - 1075) := by
  refine ⟨if binary64.sgn x then -(2 * q + 1) else 2 * q + 1, by split_ifs <;> omega, ?_⟩
  have hbias : (binary64.bias : ℤ) = 1023 := by decide
  have hF : binary64.F = 52 := rfl
  unfold val
  rw [if_neg hb, hbias, hF]
  have h2 : (1 : ℝ) + (binary64.frac x : ℝ) / 2 ^ 52 = (2 : ℝ) ^ (t : ℤ) * (2 * q + 1) * (2 : ℝ) ^ (-52 : ℤ) := by
    have : ((2 ^ 52 + binary64.frac x : ℕ) : ℝ) = ((2 ^ t * (2 * q + 1) : ℕ) : ℝ) := by rw [h]
    push_cast at this
    rw [zpow_natCast, ← this]
    norm_num
    ring
  rw [h2, show (binary64.bexp x : ℤ) + t - 1075 = ((binary64.bexp x : ℤ) - 1023) + t + (-52) by ring, zpow_add₀ (by norm_num), zpow_add₀ (by norm_num)]
  split_ifs <;> push_cast <;> ring

theorem subnormal_small {x : ℕ} (hb : binary64.bexp x = 0) : |binary64.val x| < 1 := by
  have hbias : (binary64.bias : ℤ) = 1023 := by decide
  have hF : binary64.F = 52 := rfl
  unfold val
  rw [if_pos hb, hbias, hF, abs_mul, abs_mul]
  have h1 : |(if binary64.sgn x = true then (-1 : ℝ) else 1)| = 1 := by split_ifs <;> simp
  have h2 : |(2 : ℝ) ^ (1 - (1023 : ℤ))| ≤ 1 := by
    rw [abs_of_pos (zpow_pos (by norm_num) _)]
    exact zpow_le_one_of_nonpos₀ (by norm_num) (by norm_num)
  have h3 : |(binary64.frac x : ℝ) / 2 ^ 52| < 1 := by
    have : binary64.frac x < 2 ^ 52 := Nat.mod_lt _ (by norm_num)
    have h : (binary64.frac x : ℝ) < 2 ^ 52 := by exact_mod_cast this
    rw [abs_of_nonneg (by positivity), div_lt_one (by positivity)]
    exact h
  rw [h1, one_mul]
  have := abs_nonneg ((binary64.frac x : ℝ) / 2 ^ 52)
  have h4 := mul_le_mul_of_nonneg_right h2 this
  linarith

/-- C26: the odd-integer test is exact for every finite datum. -/
theorem C26_is_odd_integer {x : ℕ} (hx : binary64.Finite x) : CC.isOddInteger x = true ↔ ∃ k : ℤ, binary64.val x = 2 * k + 1 := by
  obtain ⟨h1, t, h2, ht, q, hq⟩ := oddTest_spec hx.1
  unfold CC.isOddInteger
  simp only [h1, h2, decide_eq_true_eq]
  by_cases hb : binary64.bexp x = 0
  · constructor
    · omega
    · rintro ⟨k, hk⟩
      have := subnormal_small hb
      rw [hk] at this
      have h3 : |2 * k + 1| < 1 := by exact_mod_cast this
      rw [abs_lt] at h3; omega
  · obtain ⟨o, ho, hv⟩ := normal_val_odd hb hq
    rw [hv, odd_mul_zpow_odd ho]
    omega

example : binary64.Finite 0xC008000000000000 ∧ CC.isOddInteger 0xC008000000000000 = true := by
  rw [finite_iff]; decide +kernel

/-- C26: the integer test is exact for every finite datum other than zero.  Missing for the full property: `±0`, for which it answers no. -/
theorem C26_is_integer_partial {x : ℕ} (hx : binary64.Finite x) (h0 : binary64.val x ≠ 0) :
    CC.isInteger x = true ↔ ∃ k : ℤ, binary64.val x = k := by
  obtain ⟨h1, t, h2, ht, q, hq⟩ := oddTest_spec hx.1
  unfold CC.isInteger
  simp only [h1, h2, decide_eq_true_eq]
  by_cases hb : binary64.bexp x = 0
  · constructor
    · omega
    · rintro ⟨k, hk⟩
      have := subnormal_small hb
      rw [hk] at this
      have h3 : |k| < 1 := by exact_mod_cast this
      rw [abs_lt] at h3
      have : k = 0 := by omega
      rw [hk, this] at h0; simp at h0
  · obtain ⟨o, ho, hv⟩ := normal_val_odd hb hq
    rw [hv, odd_mul_zpow_int ho]
    omega

example : binary64.Finite 0x4008000000000000 ∧ CC.isInteger 0x4008000000000000 = true ∧ CC.isInteger 0x4004000000000000 = false := by
  rw [finite_iff]; decide +kernel

/-- C26 fails for zeros: the test denies that `±0` is an integer. -/
theorem C26_is_integer_zero_wrong :
    ∀ s, CC.isInteger (binary64.zero s) = false ∧ binary64.Finite (binary64.zero s) ∧ binary64.val (binary64.zero s) = ((0 : ℤ) : ℝ) := by
  intro s
  exact ⟨by cases s <;> decide +kernel, binary64.finite_zero s, by rw [val_zero]; simp⟩

theorem isOdd_inf {x : ℕ} (h : binary64.IsInf x) : CC.isOddInteger x = false := by
  obtain ⟨h1, t, h2, ht, q, hq⟩ := oddTest_spec h.1
  unfold CC.isOddInteger
  simp only [h1, h2, decide_eq_false_iff_not]
  have : binary64.bexp x = 2047 := h.2.1
  omega

theorem isOddInteger_iff {y : ℕ} (hv : binary64.Valid y) (hn : ¬ binary64.IsNaN y) : CC.isOddInteger y = true ↔ OddInt y := by
  rcases binary64.not_nan_cases hv hn with h | h
  · rw [C26_is_odd_integer h]; simp [OddInt, h]
  · rw [isOdd_inf h]
    simp only [OddInt, Bool.false_eq_true, false_iff, not_and]
    intro hf; exact absurd h.2.1 hf.2

variable (kernel : ℕ → ℕ → Bool → Option (ℕ × CC.PowEff)) (m : Mode)

theorem one64_val : binary64.Finite CC.one64 ∧ binary64.val CC.one64 = 1 := by
  refine ⟨by rw [finite_iff]; decide +kernel, ?_⟩
  rw [val_of_ival' (a := 1) (by decide +kernel)]; norm_num
where
  val_of_ival' {x : ℕ} {a : ℤ} (h : binary64.ival x = a * binary64.uscale) : binary64.val x = a := by
    rw [val_eq_ival, h]; push_cast
    rw [mul_assoc, binary64.uscale_minSub, mul_one]

theorem eq_one64 {x : ℕ} (hx : binary64.Finite x) (h : binary64.val x = 1) : x = CC.one64 := by
  apply binary64.eq_of_val_eq hx.1 one64_val.1.1 (by rw [h, one64_val.2])
  have : binary64.sgn x = false := by
    by_contra hs
    rw [Bool.not_eq_false] at hs
    have := CC.val_eq_sg_abs binary64 x
    rw [hs, h] at this
    simp at this
    linarith
  rw [this]; decide +kernel

theorem qnan64 : binary64.IsNaN (FPBits.quietNaN binary64 false 0) := by decide +kernel

/-- C25: `pow(x, ±0)` is `1` for every `x`, NaN included. -/
theorem C25_pow_zero {x y : ℕ} (_hy : binary64.Finite y) (h : binary64.val y = 0) :
    ∃ r e, CC.powImpl kernel m x y = some (r, e) ∧ binary64.Finite r ∧ binary64.val r = 1 ∧ e.errno = none := by
  have h0 := (binary64.val_eq_zero_iff y).1 h
  refine ⟨CC.one64, { invalid := FPBits.isSignalingNan binary64 x || FPBits.isSignalingNan binary64 y }, ?_, one64_val.1, one64_val.2, rfl⟩
  unfold CC.powImpl
  rw [FPBits.isZero_eq, zeroB, h0]; rfl

example : ∃ r e, CC.powImpl kernel m 0x7FF8000000000000 0x8000000000000000 = some (r, e) ∧ binary64.Finite r ∧ binary64.val r = 1 ∧ e.errno = none :=
  C25_pow_zero kernel m (by rw [finite_iff]; decide +kernel) (by rw [val_eq_zero_iff]; decide +kernel)

/-- C25: `pow(1, y)` is `1` for every `y`, NaN included. -/
theorem C25_pow_one_base {x y : ℕ} (hx : binary64.Finite x) (h : binary64.val x = 1) :
    ∃ r e, CC.powImpl kernel m x y = some (r, e) ∧ binary64.Finite r ∧ binary64.val r = 1 ∧ e.errno = none := by
  have h1 := eq_one64 hx h
  refine ⟨CC.one64, { invalid := FPBits.isSignalingNan binary64 x || FPBits.isSignalingNan binary64 y }, ?_, one64_val.1, one64_val.2, rfl⟩
  unfold CC.powImpl
  simp only [h1, if_true]
  split_ifs <;> rfl

example : ∃ r e, CC.powImpl kernel m CC.one64 0x7FF8000000000000 = some (r, e) ∧ binary64.Finite r ∧ binary64.val r = 1 ∧ e.errno = none :=
  C25_pow_one_base kernel m one64_val.1 one64_val.2

/-- C25: with a NaN argument outside the two rows above the result is a NaN. -/
theorem C25_pow_nan {x y : ℕ} (hx : binary64.Valid x) (hy : binary64.Valid y) (hy0 : ¬ (binary64.Finite y ∧ binary64.val y = 0))
    (hx1 : ¬ (binary64.Finite x ∧ binary64.val x = 1)) (hn : binary64.IsNaN x ∨ binary64.IsNaN y) :
    ∃ r e, CC.powImpl kernel m x y = some (r, e) ∧ binary64.IsNaN r ∧ e.errno = none := by
  have h1 : x ≠ CC.one64 := fun h => hx1 (h ▸ one64_val)
  have h2 : binary64.zeroB y = false := by
    by_contra h
    simp only [zeroB, Bool.not_eq_false, decide_eq_true_eq] at h
    exact hy0 ⟨(binary64.finite_iff y).2 ⟨hy, h ▸ (by decide +kernel)⟩, (binary64.val_eq_zero_iff y).2 h⟩
  have h3 : (binary64.nanB x || binary64.nanB y) = true := by
    rw [Bool.or_eq_true, binary64.nanB_iff hx, binary64.nanB_iff hy]; exact hn
  refine ⟨FPBits.quietNaN binary64 false 0, { invalid := FPBits.isSignalingNan binary64 x || FPBits.isSignalingNan binary64 y }, ?_, qnan64, rfl⟩
  unfold CC.powImpl
  simp only [FPBits.isZero_eq, FPBits.isNan_eq, h2, Bool.false_eq_true, if_false, if_neg h1, h3, if_true]

example : binary64.IsNaN 0x7FF0000000000001 ∧ ∃ r e, CC.powImpl kernel m 0x4000000000000000 0x7FF0000000000001 = some (r, e) ∧ binary64.IsNaN r ∧ e.errno = none := by
  have h : binary64.IsNaN 0x7FF0000000000001 := by decide +kernel
  refine ⟨h, C25_pow_nan kernel m (by decide) (by decide) (fun h' => ?_) (fun h' => ?_) (Or.inr h)⟩
  · have := (binary64.finite_iff _).1 h'.1; revert this; decide +kernel
  · have := eq_one64 h'.1 h'.2; revert this; decide +kernel

/-- the remaining rows all have an ordinary `y` and `x ≠ 1` -/
theorem powImpl_ord {x y : ℕ} (hx : binary64.Valid x) (hy : binary64.Valid y) (nx : ¬ binary64.IsNaN x) (ny : ¬ binary64.IsNaN y)
    (hy0 : binary64.mag y ≠ 0) :
    CC.isOddInteger y = decide (CC.isOddInteger y) ∧ FPBits.isZero binary64 y = false ∧
      (FPBits.isNan binary64 x || FPBits.isNan binary64 y) = false ∧
      (FPBits.isSignalingNan binary64 x || FPBits.isSignalingNan binary64 y) = false ∧
      binary64.hlt y (binary64.zero false) = binary64.sgn y := by
  have e1 : binary64.nanB x = false := by rw [← Bool.not_eq_true, binary64.nanB_iff hx]; exact nx
  have e2 : binary64.nanB y = false := by rw [← Bool.not_eq_true, binary64.nanB_iff hy]; exact ny
  refine ⟨by simp, ?_, ?_, ?_, CC.hlt_zero binary64 e2 hy0⟩
  · rw [FPBits.isZero_eq]; simp [zeroB, hy0]
  · rw [FPBits.isNan_eq, FPBits.isNan_eq, e1, e2]; rfl
  · unfold FPBits.isSignalingNan; rw [FPBits.isNan_eq, FPBits.isNan_eq, e1, e2]; rfl

theorem ne_one_of_mag {x : ℕ} (h : binary64.mag x = 0 ∨ binary64.infMag ≤ binary64.mag x) : x ≠ CC.one64 := by
  rintro rfl; revert h; decide +kernel

open Classical in
/-- C25: `pow(±0, y)` for non-zero, non-NaN `y`: infinite if `y` is negative and zero otherwise, negative exactly when the base is `-0` and `y` is
an odd integer.  The code reports the pole as `EDOM` (C specifies `ERANGE` for it) together with `FE_DIVBYZERO`. -/
theorem C25_pow_zero_base {x y : ℕ} (hx : binary64.Finite x) (h0 : binary64.val x = 0) (hy : binary64.Valid y) (ny : ¬ binary64.IsNaN y)
    (hy0 : ¬ (binary64.Finite y ∧ binary64.val y = 0)) :
    CC.powImpl kernel m x y =
      if binary64.xval y < 0 then some (binary64.inf (decide (binary64.sgn x = true ∧ OddInt y)), { errno := some .edom, divByZero := true })
      else some (binary64.zero (decide (binary64.sgn x = true ∧ OddInt y)), {}) := by
  have hx0 := (binary64.val_eq_zero_iff x).1 h0
  have hm : binary64.mag y ≠ 0 := fun h => hy0 ⟨(binary64.finite_iff y).2 ⟨hy, h ▸ (by decide +kernel)⟩, (binary64.val_eq_zero_iff y).2 h⟩
  have nx : ¬ binary64.IsNaN x := by rw [isNaN_iff]; have := ((binary64.finite_iff x).1 hx).2; omega
  have h1 := ne_one_of_mag (Or.inl hx0)
  obtain ⟨-, e1, e2, e3, e4⟩ := powImpl_ord hx.1 hy nx ny hm
  have e5 : FPBits.isZero binary64 x = true := by rw [FPBits.isZero_eq]; simp [zeroB, hx0]
  have e6 := binary64.hlt_spec hy (binary64.valid_zero false)
  rw [e4] at e6
  have e7 : binary64.sgn y = true ↔ binary64.xval y < 0 := by
    rw [e6, binary64.xval_of_finite (binary64.finite_zero false), val_zero]
    have : ¬ binary64.IsNaN (binary64.zero false) := by decide +kernel
    simp [ny, this]
  have e8 : (FPBits.isNeg binary64 x && CC.isOddInteger y) = decide (binary64.sgn x = true ∧ OddInt y) := by
    rw [FPBits.isNeg_eq binary64 hx.1]
    have := isOddInteger_iff hy ny
    by_cases ho : OddInt y
    · rw [this.2 ho]; simp [ho]
    · have : CC.isOddInteger y = false := by rw [← Bool.not_eq_true, this]; exact ho
      simp [ho, this]
  unfold CC.powImpl
  simp only [e1, e2, e3, e4, e5, e8, if_neg h1, Bool.false_eq_true, if_false, if_true, FPBits.inf_eq]
  by_cases hs : binary64.sgn y = true
  · rw [if_pos hs, if_pos (e7.1 hs)]
  · rw [if_neg hs, if_neg (fun h => hs (e7.2 h))]

/-- `pow(-0, -3)` is `-inf` -/
example : CC.powImpl kernel m 0x8000000000000000 0xC008000000000000 = some (binary64.inf true, { errno := some .edom, divByZero := true }) := by
  classical
  have hf : binary64.Finite 0xC008000000000000 := by rw [finite_iff]; decide +kernel
  have hv : binary64.val 0xC008000000000000 = -3 := by
    rw [one64_val.val_of_ival' (a := -3) (by decide +kernel)]; norm_num
  have hx : binary64.Finite 0x8000000000000000 := by rw [finite_iff]; decide +kernel
  have ho : OddInt 0xC008000000000000 := ⟨hf, -2, by rw [hv]; norm_num⟩
  have hs : binary64.sgn 0x8000000000000000 = true := by decide +kernel
  rw [C25_pow_zero_base kernel m hx (by rw [val_eq_zero_iff]; decide +kernel) hf.1 (by decide +kernel) (fun h => by rw [hv] at h; norm_num at h),
    if_pos (by rw [binary64.xval_of_finite hf, hv]; exact_mod_cast (by norm_num : (-3 : ℝ) < 0))]
  simp [hs, ho]

open Classical in
/-- C25: `pow(±inf, y)` for non-zero, non-NaN `y`: zero if `y` is negative and infinite otherwise, negative exactly when the base is `-inf` and `y` is
an odd integer. -/
theorem C25_pow_inf_base {x y : ℕ} (hx : binary64.IsInf x) (hy : binary64.Valid y) (ny : ¬ binary64.IsNaN y)
    (hy0 : ¬ (binary64.Finite y ∧ binary64.val y = 0)) :
    CC.powImpl kernel m x y =
      some (if binary64.xval y < 0 then binary64.zero (decide (binary64.sgn x = true ∧ OddInt y))
        else binary64.inf (decide (binary64.sgn x = true ∧ OddInt y)), {}) := by
  have hxi := ((binary64.isInf_iff x).1 hx).2
  have hm : binary64.mag y ≠ 0 := fun h => hy0 ⟨(binary64.finite_iff y).2 ⟨hy, h ▸ (by decide +kernel)⟩, (binary64.val_eq_zero_iff y).2 h⟩
  have nx : ¬ binary64.IsNaN x := by rw [isNaN_iff]; omega
  have h1 := ne_one_of_mag (Or.inr hxi.ge)
  obtain ⟨-, e1, e2, e3, e4⟩ := powImpl_ord hx.1 hy nx ny hm
  have e5 : FPBits.isZero binary64 x = false := by rw [FPBits.isZero_eq]; simp [zeroB, hxi]; exact (show (0:ℕ) < binary64.infMag by decide +kernel).ne'
  have e5' : FPBits.isInf binary64 x = true := by rw [FPBits.isInf_eq]; simp [infB, hxi]
  have e6 := binary64.hlt_spec hy (binary64.valid_zero false)
  rw [e4] at e6
  have e7 : binary64.sgn y = true ↔ binary64.xval y < 0 := by
    rw [e6, binary64.xval_of_finite (binary64.finite_zero false), val_zero]
    have : ¬ binary64.IsNaN (binary64.zero false) := by decide +kernel
    simp [ny, this]
  have e8 : (FPBits.isNeg binary64 x && CC.isOddInteger y) = decide (binary64.sgn x = true ∧ OddInt y) := by
    rw [FPBits.isNeg_eq binary64 hx.1]
    have := isOddInteger_iff hy ny
    by_cases ho : OddInt y
    · rw [this.2 ho]; simp [ho]
    · have : CC.isOddInteger y = false := by rw [← Bool.not_eq_true, this]; exact ho
      simp [ho, this]
  unfold CC.powImpl
  simp only [e1, e2, e3, e4, e5, e5', e8, if_neg h1, Bool.false_eq_true, if_false, if_true, FPBits.inf_eq]
  by_cases hs : binary64.sgn y = true
  · rw [if_pos hs, if_pos (e7.1 hs)]
  · rw [if_neg hs, if_neg (fun h => hs (e7.2 h))]

/-- `pow(-inf, +inf)` is `+inf` -/
example : CC.powImpl kernel m 0xFFF0000000000000 0x7FF0000000000000 = some (binary64.inf false, {}) := by
  classical
  have hi : binary64.IsInf 0x7FF0000000000000 := by decide +kernel
  have hn : ¬ binary64.Finite 0x7FF0000000000000 := by rw [finite_iff]; decide +kernel
  have ho : ¬ OddInt 0x7FF0000000000000 := fun h => hn h.1
  rw [C25_pow_inf_base kernel m (by decide +kernel) hi.1 (by decide +kernel) (fun h => hn h.1)]
  have : ¬ binary64.xval 0x7FF0000000000000 < 0 := by
    rw [show (0x7FF0000000000000 : ℕ) = binary64.inf false by decide +kernel, xval_inf]; simp
  rw [if_neg this]; simp [ho]

theorem val_lt_one_iff {x : ℕ} (_hx : binary64.Finite x) : (binary64.mag x < CC.one64 ↔ |binary64.val x| < 1) ∧ (binary64.mag x = CC.one64 ↔ |binary64.val x| = 1) := by
  have h1 := one64_val
  have hk : binary64.key CC.one64 = CC.one64 := by decide +kernel
  rw [← CC.val_mag binary64 x, ← h1.2]
  constructor
  · rw [binary64.val_lt_iff_key, hk, CC.key_mag]; omega
  · rw [binary64.val_eq_iff_key, hk, CC.key_mag]; omega

/-- C25: an infinite exponent with finite non-zero base: `1` for `|x| = 1`, otherwise `+0` or `+inf` by comparing `|x|` with `1`. -/
theorem C25_pow_inf_exp {x y : ℕ} (hx : binary64.Finite x) (h0 : binary64.val x ≠ 0) (hy : binary64.IsInf y) :
    ∃ r, CC.powImpl kernel m x y = some (r, {}) ∧
      (|binary64.val x| = 1 → binary64.Finite r ∧ binary64.val r = 1) ∧
      (|binary64.val x| < 1 → r = if binary64.sgn y then binary64.inf false else binary64.zero false) ∧
      (1 < |binary64.val x| → r = if binary64.sgn y then binary64.zero false else binary64.inf false) := by
  by_cases h1 : x = CC.one64
  · refine ⟨CC.one64, ?_, fun _ => one64_val, ?_, ?_⟩
    · subst h1
      unfold CC.powImpl
      have : FPBits.isSignalingNan binary64 CC.one64 = false := by decide +kernel
      have h2 : FPBits.isSignalingNan binary64 y = false := by
        unfold FPBits.isSignalingNan
        rw [FPBits.isNan_eq]; simp [nanB, ((binary64.isInf_iff y).1 hy).2]
      simp only [this, h2, Bool.or_false, if_true]
      split_ifs <;> rfl
    · intro h; rw [h1, one64_val.2] at h; simp at h
    · intro h; rw [h1, one64_val.2] at h; simp at h
  have hyi := ((binary64.isInf_iff y).1 hy).2
  have hx0 : binary64.mag x ≠ 0 := fun h => h0 ((binary64.val_eq_zero_iff x).2 h)
  have hxf := ((binary64.finite_iff x).1 hx).2
  have nx : ¬ binary64.IsNaN x := by rw [isNaN_iff]; omega
  have ny : ¬ binary64.IsNaN y := by rw [isNaN_iff]; omega
  have hm : binary64.mag y ≠ 0 := by have := binary64.infMag_pos; omega
  obtain ⟨-, e1, e2, e3, e4⟩ := powImpl_ord hx.1 hy.1 nx ny hm
  have e5 : FPBits.isZero binary64 x = false := by rw [FPBits.isZero_eq]; simp [zeroB, hx0]
  have e6 : FPBits.isInf binary64 x = false := by rw [FPBits.isInf_eq]; simp [infB, hxf.ne]
  have e7 : FPBits.isInf binary64 y = true := by rw [FPBits.isInf_eq]; simp [infB, hyi]
  obtain ⟨v1, v2⟩ := val_lt_one_iff hx
  unfold CC.powImpl
  simp only [e1, e2, e3, e4, e5, e6, e7, if_neg h1, Bool.false_eq_true, if_false, if_true, FPBits.abs_eq, FPBits.isNeg_eq binary64 hy.1]
  by_cases c1 : binary64.mag x = CC.one64
  · refine ⟨CC.one64, by rw [if_pos c1], fun _ => one64_val, ?_, ?_⟩
    · intro h; rw [v2.1 c1] at h; simp at h
    · intro h; rw [v2.1 c1] at h; simp at h
  · rw [if_neg c1]
    by_cases c2 : binary64.mag x < CC.one64
    · simp only [c2, if_true]
      refine ⟨if binary64.sgn y then binary64.inf false else binary64.zero false, by split_ifs <;> rfl, ?_, fun _ => rfl, ?_⟩
      · intro h; exact absurd (v2.2 h) c1
      · intro h; have := v1.1 c2; linarith
    · simp only [c2, if_false]
      refine ⟨if binary64.sgn y then binary64.zero false else binary64.inf false, by split_ifs <;> rfl, ?_, ?_, fun _ => rfl⟩
      · intro h; exact absurd (v2.2 h) c1
      · intro h; exact absurd (v1.2 h) c2

/-- `pow(-1, -inf)` is `1` -/
example : ∃ r, CC.powImpl kernel m 0xBFF0000000000000 0xFFF0000000000000 = some (r, {}) ∧ binary64.Finite r ∧ binary64.val r = 1 := by
  have hv : binary64.val 0xBFF0000000000000 = -1 := by
    rw [one64_val.val_of_ival' (a := -1) (by decide +kernel)]; norm_num
  obtain ⟨r, h1, h2, -⟩ := C25_pow_inf_exp kernel m (x := 0xBFF0000000000000) (y := 0xFFF0000000000000) (by rw [finite_iff]; decide +kernel)
    (by rw [hv]; norm_num) (by decide +kernel)
  exact ⟨r, h1, h2 (by rw [hv]; norm_num)⟩

/-- C25: a negative finite base with a finite non-integer exponent is a domain error: NaN, `EDOM` and `FE_INVALID`. -/
theorem C25_pow_domain {x y : ℕ} (hx : binary64.Finite x) (hneg : binary64.val x < 0) (hy : binary64.Finite y) (hni : ¬ ∃ k : ℤ, binary64.val y = k) :
    ∃ r, CC.powImpl kernel m x y = some (r, { errno := some .edom, invalid := true }) ∧ binary64.IsNaN r := by
  have hy0 : binary64.val y ≠ 0 := fun h => hni ⟨0, by simpa using h⟩
  have hym : binary64.mag y ≠ 0 := fun h => hy0 ((binary64.val_eq_zero_iff y).2 h)
  have hx0 : binary64.mag x ≠ 0 := fun h => hneg.ne ((binary64.val_eq_zero_iff x).2 h)
  have hxf := ((binary64.finite_iff x).1 hx).2
  have hyf := ((binary64.finite_iff y).1 hy).2
  have nx : ¬ binary64.IsNaN x := by rw [isNaN_iff]; omega
  have ny : ¬ binary64.IsNaN y := by rw [isNaN_iff]; omega
  have h1 : x ≠ CC.one64 := by rintro rfl; rw [one64_val.2] at hneg; norm_num at hneg
  obtain ⟨-, e1, e2, e3, e4⟩ := powImpl_ord hx.1 hy.1 nx ny hym
  have e5 : FPBits.isZero binary64 x = false := by rw [FPBits.isZero_eq]; simp [zeroB, hx0]
  have e6 : FPBits.isInf binary64 x = false := by rw [FPBits.isInf_eq]; simp [infB, hxf.ne]
  have e7 : FPBits.isInf binary64 y = false := by rw [FPBits.isInf_eq]; simp [infB, hyf.ne]
  have e8 : binary64.hlt x (binary64.zero false) = true := by
    rw [binary64.hlt_spec hx.1 (binary64.valid_zero false), binary64.xval_of_finite (binary64.finite_zero false), binary64.xval_of_finite hx, val_zero]
    exact ⟨nx, by decide +kernel, by exact_mod_cast hneg⟩
  have e9 : CC.isInteger y = false := by rw [← Bool.not_eq_true, C26_is_integer_partial hy hy0]; exact hni
  refine ⟨FPBits.quietNaN binary64 false 0, ?_, qnan64⟩
  unfold CC.powImpl
  simp only [e1, e2, e3, e4, e5, e6, e7, e8, e9, if_neg h1, Bool.false_eq_true, if_false, if_true, Bool.not_false, Bool.and_true]

example : ∃ r, CC.powImpl kernel m 0xC000000000000000 0x3FE0000000000000 = some (r, { errno := some .edom, invalid := true }) ∧ binary64.IsNaN r := by
  have hf : binary64.Finite 0x3FE0000000000000 := by rw [finite_iff]; decide +kernel
  refine C25_pow_domain kernel m (by rw [finite_iff]; decide +kernel) ?_ hf ?_
  · rw [← binary64.val_zero false, val_lt_iff_key]; decide +kernel
  · rw [← C26_is_integer_partial hf (by rw [Ne, val_eq_zero_iff]; decide +kernel)]; decide +kernel

/-- C25: for a negative finite base other than `-1` and an even integer exponent `y ≠ 0`, `pow(x, y)` is exactly `pow(|x|, y)` (same bits, same effects). -/
theorem C25_pow_neg_even {x y : ℕ} (hx : binary64.Finite x) (hneg : binary64.val x < 0) (hx1 : binary64.val x ≠ -1)
    (hy : binary64.Finite y) (hy0 : binary64.val y ≠ 0) (he : ∃ k : ℤ, binary64.val y = 2 * k) :
    CC.powImpl kernel m x y = CC.powImpl kernel m (binary64.hneg x) y := by
  have hym : binary64.mag y ≠ 0 := fun h => hy0 ((binary64.val_eq_zero_iff y).2 h)
  have hx0 : binary64.mag x ≠ 0 := fun h => hneg.ne ((binary64.val_eq_zero_iff x).2 h)
  have hxf := ((binary64.finite_iff x).1 hx).2
  have hyf := ((binary64.finite_iff y).1 hy).2
  have nx : ¬ binary64.IsNaN x := by rw [isNaN_iff]; omega
  have nx' : ¬ binary64.IsNaN (binary64.hneg x) := by rw [isNaN_iff, mag_hneg]; omega
  have ny : ¬ binary64.IsNaN y := by rw [isNaN_iff]; omega
  have h1 : x ≠ CC.one64 := by rintro rfl; rw [one64_val.2] at hneg; norm_num at hneg
  have h1' : binary64.hneg x ≠ CC.one64 := by
    intro h; apply hx1
    have := binary64.val_hneg x
    rw [h, one64_val.2] at this; linarith
  have hfn := binary64.finite_hneg hx
  obtain ⟨-, e1, e2, e3, e4⟩ := powImpl_ord hx.1 hy.1 nx ny hym
  obtain ⟨-, -, e2', e3', -⟩ := powImpl_ord hfn.1 hy.1 nx' ny hym
  have e5 : FPBits.isZero binary64 x = false := by rw [FPBits.isZero_eq]; simp [zeroB, hx0]
  have e5' : FPBits.isZero binary64 (binary64.hneg x) = false := by rw [FPBits.isZero_eq]; simp [zeroB, mag_hneg, hx0]
  have e6 : FPBits.isInf binary64 x = false := by rw [FPBits.isInf_eq]; simp [infB, hxf.ne]
  have e6' : FPBits.isInf binary64 (binary64.hneg x) = false := by rw [FPBits.isInf_eq]; simp [infB, mag_hneg, hxf.ne]
  have e7 : FPBits.isInf binary64 y = false := by rw [FPBits.isInf_eq]; simp [infB, hyf.ne]
  have e8 : binary64.hlt x (binary64.zero false) = true := by
    rw [binary64.hlt_spec hx.1 (binary64.valid_zero false), binary64.xval_of_finite (binary64.finite_zero false), binary64.xval_of_finite hx, val_zero]
    exact ⟨nx, by decide +kernel, by exact_mod_cast hneg⟩
  have e8' : binary64.hlt (binary64.hneg x) (binary64.zero false) = false := by
    rw [← Bool.not_eq_true, binary64.hlt_spec hfn.1 (binary64.valid_zero false), binary64.xval_of_finite (binary64.finite_zero false),
      binary64.xval_of_finite hfn, val_zero, val_hneg]
    rintro ⟨-, -, h⟩
    have : -binary64.val x < 0 := by exact_mod_cast h
    linarith
  obtain ⟨k, hk⟩ := he
  have e9 : CC.isInteger y = true := (C26_is_integer_partial hy hy0).2 ⟨2 * k, by rw [hk]; push_cast; rfl⟩
  have e10 : CC.isOddInteger y = false := by
    rw [← Bool.not_eq_true, C26_is_odd_integer hy]
    rintro ⟨j, hj⟩
    rw [hk] at hj
    have : 2 * k = 2 * j + 1 := by exact_mod_cast hj
    omega
  have e11 : FPBits.abs binary64 x = binary64.hneg x := by
    rw [FPBits.abs_eq]
    have : binary64.sgn x = true := by
      by_contra hs
      rw [Bool.not_eq_true] at hs
      have := CC.val_eq_sg_abs binary64 x
      rw [hs] at this; simp at this
      have := abs_nonneg (binary64.val x)
      linarith
    unfold Fmt.hneg; rw [this]; exact (CC.pack_false binary64 _).symm
  unfold CC.powImpl
  simp only [e1, e2, e2', e3, e3', e5, e5', e6, e6', e7, e8, e8', e9, e10, e11, if_neg h1, if_neg h1', Bool.false_eq_true, if_false, if_true,
    Bool.not_true, Bool.and_false]

/-- `pow(-3, 2) = pow(3, 2)` -/
example : CC.powImpl kernel m 0xC008000000000000 0x4000000000000000 = CC.powImpl kernel m 0x4008000000000000 0x4000000000000000 := by
  have hf : binary64.Finite 0xC008000000000000 := by rw [finite_iff]; decide +kernel
  have hv : binary64.val 0xC008000000000000 = -3 := by
    rw [one64_val.val_of_ival' (a := -3) (by decide +kernel)]; norm_num
  have hv2 : binary64.val 0x4000000000000000 = 2 := by
    rw [one64_val.val_of_ival' (a := 2) (by decide +kernel)]; norm_num
  have := C25_pow_neg_even kernel m (y := 0x4000000000000000) hf (by rw [hv]; norm_num) (by rw [hv]; norm_num) (by rw [finite_iff]; decide +kernel)
    (by rw [hv2]; norm_num) ⟨1, by rw [hv2]; norm_num⟩
  rwa [show binary64.hneg 0xC008000000000000 = 0x4008000000000000 by decide +kernel] at this

end Verif
