import Verif.Lemmas.Rsqrt3

/-!
# C47 (exact sign of a sum, reciprocal square root), C52 (pow with exponents one half and minus one half)
-/

namespace Verif
open Fmt

/-- C47: `exact_sign_of_sum` returns the sign of the real sum of its terms, for any number of terms that are zero or at least `2^-178` in
magnitude and whose magnitudes add up to less than `2^26` (what its 256-bit accumulators can hold). -/
theorem C47_exact_sign_of_sum {l : List ℕ} (hl : ∀ t ∈ l, binary64.Finite t ∧ (binary64.val t = 0 ∨ (2 : ℝ) ^ (-178 : ℤ) ≤ |binary64.val t|))
    (hs : (l.map fun t => |binary64.val t|).sum < 2 ^ 26) :
    (0 < (l.map binary64.val).sum ↔ CC.exactSignOfSum l = 1) ∧ ((l.map binary64.val).sum = 0 ↔ CC.exactSignOfSum l = 0) ∧
      ((l.map binary64.val).sum < 0 ↔ CC.exactSignOfSum l = -1) := by
  have h := exactSignOfSum_spec (fun t ht => ⟨(hl t ht).1.1, (hl t ht).2⟩) hs
  generalize CC.exactSignOfSum l = s at *
  generalize (l.map binary64.val).sum = v at *
  rcases h with ⟨a, rfl⟩ | ⟨a, rfl⟩ | ⟨a, rfl⟩
  · exact ⟨by simp [a], by simp [a.ne'], by simp [a.le]⟩
  · exact ⟨by simp [a], by simp [a], by simp [a]⟩
  · exact ⟨by simp [a.le], by simp [a.ne], by simp [a]⟩

/-- `1 + 2^-52 - 1`: nearly total cancellation -/
example : CC.exactSignOfSum [0x3FF0000000000000, 0x3CB0000000000000, 0xBFF0000000000000] = 1 := by decide +kernel

example : (0 < ([0x3FF0000000000000, 0xBFF0000000000000].map binary64.val).sum ↔ CC.exactSignOfSum [0x3FF0000000000000, 0xBFF0000000000000] = 1) := by
  have v1 := one64_val
  have v2 : binary64.val 0xBFF0000000000000 = -1 := by
    have : binary64.hneg CC.one64 = 0xBFF0000000000000 := by decide +kernel
    rw [← this, binary64.val_hneg, v1.2]
  have f2 : binary64.Finite 0xBFF0000000000000 := by rw [finite_iff]; decide +kernel
  have b : (2 : ℝ) ^ (-178 : ℤ) ≤ 1 := zpow_le_one_of_nonpos₀ (by norm_num) (by norm_num)
  have v1' : binary64.val 0x3FF0000000000000 = 1 := v1.2
  refine (C47_exact_sign_of_sum ?_ ?_).1
  · intro t ht
    simp only [List.mem_cons, List.not_mem_nil, or_false] at ht
    rcases ht with rfl | rfl
    · exact ⟨v1.1, Or.inr (by rw [v1', abs_one]; exact b)⟩
    · exact ⟨f2, Or.inr (by rw [v2, abs_neg, abs_one]; exact b)⟩
  · simp only [List.map_cons, List.map_nil, List.sum_cons, List.sum_nil, v1', v2]; norm_num

/-- C47: `cr_rsqrt` ends and returns the correctly rounded `1/√x` in every rounding mode, for every positive finite `x` including subnormal ones. -/
theorem C47_rsqrt (m : Mode) {x : ℕ} (hx : binary64.Finite x) (hx0 : 0 < binary64.val x) :
    ∃ r, CC.crRsqrt m x = some r ∧ binary64.RoundsTo m false (1 / Real.sqrt (binary64.val x)) r :=
  crRsqrt_spec m hx hx0

/-- the least subnormal number -/
example (m : Mode) : ∃ r, CC.crRsqrt m 1 = some r ∧ binary64.RoundsTo m false (1 / Real.sqrt (binary64.val 1)) r :=
  C47_rsqrt m (by rw [finite_iff]; decide +kernel)
    (by rw [(pv_val (by norm_num)).1]; exact lt_of_le_of_lt (pv_nonneg 0) (pv_lt.2 (by norm_num)))

variable (kernel : ℕ → ℕ → Bool → Option (ℕ × CC.PowEff)) (m : Mode)

theorem half_bits : binary64.Finite 0xBFE0000000000000 ∧ binary64.val 0xBFE0000000000000 = -(1 / 2) := by
  have h := half64_val
  have : binary64.hneg CC.half64 = 0xBFE0000000000000 := by decide +kernel
  rw [← this]
  exact ⟨binary64.finite_hneg h.1, by rw [val_hneg, h.2]; norm_num⟩

theorem eq_half {y : ℕ} (hy : binary64.Finite y) (h : binary64.val y = 1 / 2) : y = CC.half64 := by
  apply binary64.eq_of_val_eq hy.1 half64_val.1.1 (by rw [h, half64_val.2]; norm_num)
  have h2 := CC.val_eq_sg_abs binary64 y
  cases hs : binary64.sgn y
  · decide +kernel
  · rw [hs, h] at h2; norm_num at h2

theorem eq_neg_half {y : ℕ} (hy : binary64.Finite y) (h : binary64.val y = -(1 / 2)) : y = 0xBFE0000000000000 := by
  apply binary64.eq_of_val_eq hy.1 half_bits.1.1 (by rw [h, half_bits.2])
  have h2 := CC.val_eq_sg_abs binary64 y
  cases hs : binary64.sgn y
  · rw [hs, h] at h2; norm_num at h2
  · decide +kernel

/-- a positive finite base different from `1` and a finite non-zero exponent reach the paths below the special cases -/
theorem powImpl_pos {x y : ℕ} (hx : binary64.Finite x) (hx0 : 0 < binary64.val x) (h1 : x ≠ CC.one64) (hy : binary64.Finite y) (hy0 : binary64.val y ≠ 0) :
    CC.powImpl kernel m x y =
      match CC.powIntPath m x y false {} with
      | none => none
      | some (some r) => some r
      | some none =>
        match CC.powHalfPath m x y {} with
        | none => none
        | some (some r) => some r
        | some none =>
          kernel x (if FPBits.abs binary64 y > 0x43d74910d52d3052 then
            (if FPBits.isNeg binary64 y then 0xC630000000000000 else 0x4630000000000000) else y) false := by
  have hxm : binary64.mag x ≠ 0 := fun h => hx0.ne' ((binary64.val_eq_zero_iff x).2 h)
  have hym : binary64.mag y ≠ 0 := fun h => hy0 ((binary64.val_eq_zero_iff y).2 h)
  have hxf := ((binary64.finite_iff x).1 hx).2
  have hyf := ((binary64.finite_iff y).1 hy).2
  have nx : ¬ binary64.IsNaN x := by rw [isNaN_iff]; omega
  have ny : ¬ binary64.IsNaN y := by rw [isNaN_iff]; omega
  obtain ⟨-, e1, e2, e3, e4⟩ := powImpl_ord hx.1 hy.1 nx ny hym
  have e5 : FPBits.isZero binary64 x = false := by rw [FPBits.isZero_eq]; simp [zeroB, hxm]
  have e6 : FPBits.isInf binary64 x = false := by rw [FPBits.isInf_eq]; simp [infB, hxf.ne]
  have e7 : FPBits.isInf binary64 y = false := by rw [FPBits.isInf_eq]; simp [infB, hyf.ne]
  have e8 : binary64.hlt x (binary64.zero false) = false := by
    have nb : binary64.nanB x = false := by rw [← Bool.not_eq_true, binary64.nanB_iff hx.1]; exact nx
    rw [CC.hlt_zero binary64 nb hxm]
    have h2 := CC.val_eq_sg_abs binary64 x
    cases hs : binary64.sgn x
    · rfl
    · rw [hs, sg_true] at h2
      have := abs_nonneg (binary64.val x); linarith
  unfold CC.powImpl
  simp only [e1, e2, e3, e5, e6, e7, e8, if_neg h1, Bool.false_eq_true, if_false, Bool.false_and]
  rfl

/-- C52: `pow(x, 0.5)` is the correctly rounded square root in every mode, for every positive finite `x`. -/
theorem C52_pow_half {x y : ℕ} (hx : binary64.Finite x) (hx0 : 0 < binary64.val x) (hy : binary64.Finite y) (h : binary64.val y = 1 / 2) :
    ∃ r, CC.powImpl kernel m x y = some (r, {}) ∧ binary64.RoundsTo m false (Real.sqrt (binary64.val x)) r := by
  obtain rfl := eq_half hy h
  by_cases h1 : x = CC.one64
  · refine ⟨CC.one64, ?_, ?_⟩
    · unfold CC.powImpl
      have a : FPBits.isSignalingNan binary64 CC.one64 = false := by decide +kernel
      have b : FPBits.isSignalingNan binary64 CC.half64 = false := by decide +kernel
      simp only [h1, a, b, if_true]
      split_ifs <;> rfl
    · have := C19_sqrt binary64 (by decide) (by decide) m hx hx0.le
      rw [h1] at this ⊢
      have e : CC.sqrt binary64 m CC.one64 = CC.one64 := by cases m <;> decide +kernel
      have s : binary64.sgn CC.one64 = false := by decide +kernel
      rwa [e, s] at this
  refine ⟨CC.sqrt binary64 m x, ?_, ?_⟩
  · rw [powImpl_pos kernel m hx hx0 h1 half64_val.1 (by rw [h]; norm_num)]
    have a : CC.powIntPath m x CC.half64 false {} = some none := by
      unfold CC.powIntPath
      have : CC.isInteger CC.half64 = false := by decide +kernel
      simp only [this, Bool.false_and, Bool.false_eq_true, if_false]
    have b : CC.powHalfPath m x CC.half64 {} = some (some (CC.sqrt binary64 m x, {})) := by
      unfold CC.powHalfPath
      have e : binary64.hmul m CC.half64 CC.two64 = CC.one64 := by cases m <;> decide +kernel
      rw [e]
      have c : (CC.isInteger CC.one64 && !CC.isInteger CC.half64 && binary64.hle (FPBits.abs binary64 CC.one64) 0x40A0000000000000) = true := by decide +kernel
      have d : binary64.heq CC.half64 CC.half64 = true := by decide +kernel
      simp only [c, d, if_true]
    rw [a, b]
  · have := C19_sqrt binary64 (by decide) (by decide) m hx hx0.le
    have s : binary64.sgn x = false := by
      have h2 := CC.val_eq_sg_abs binary64 x
      cases hs : binary64.sgn x
      · rfl
      · rw [hs, sg_true] at h2
        have := abs_nonneg (binary64.val x); linarith
    rwa [s] at this

example : ∃ r, CC.powImpl kernel m 1 CC.half64 = some (r, {}) ∧ binary64.RoundsTo m false (Real.sqrt (binary64.val 1)) r :=
  C52_pow_half kernel m (by rw [finite_iff]; decide +kernel)
    (by rw [(pv_val (by norm_num)).1]; exact lt_of_le_of_lt (pv_nonneg 0) (pv_lt.2 (by norm_num))) half64_val.1 (by rw [half64_val.2]; norm_num)

/-- C52: `pow(x, -0.5)` is the correctly rounded reciprocal square root in every mode, for every positive finite `x`. -/
theorem C52_pow_neg_half {x y : ℕ} (hx : binary64.Finite x) (hx0 : 0 < binary64.val x) (hy : binary64.Finite y) (h : binary64.val y = -(1 / 2)) :
    ∃ r, CC.powImpl kernel m x y = some (r, {}) ∧ binary64.RoundsTo m false (1 / Real.sqrt (binary64.val x)) r := by
  obtain rfl := eq_neg_half hy h
  obtain ⟨r, r1, r2⟩ := crRsqrt_spec m hx hx0
  by_cases h1 : x = CC.one64
  · refine ⟨CC.one64, ?_, ?_⟩
    · unfold CC.powImpl
      have a : FPBits.isSignalingNan binary64 CC.one64 = false := by decide +kernel
      have b : FPBits.isSignalingNan binary64 0xBFE0000000000000 = false := by decide +kernel
      simp only [h1, a, b, if_true]
      split_ifs <;> rfl
    · rw [h1, one64_val.2, Real.sqrt_one, div_one]
      have := binary64.hmul_spec m one64_val.1 one64_val.1
      have e : binary64.hmul m CC.one64 CC.one64 = CC.one64 := by cases m <;> decide +kernel
      have s : binary64.sgn CC.one64 = false := by decide +kernel
      rw [e, s, one64_val.2, one_mul] at this
      exact this
  refine ⟨r, ?_, r2⟩
  rw [powImpl_pos kernel m hx hx0 h1 half_bits.1 (by rw [h]; norm_num)]
  have a : CC.powIntPath m x 0xBFE0000000000000 false {} = some none := by
    unfold CC.powIntPath
    have : CC.isInteger 0xBFE0000000000000 = false := by decide +kernel
    simp only [this, Bool.false_and, Bool.false_eq_true, if_false]
  have b : CC.powHalfPath m x 0xBFE0000000000000 {} = some (some (r, {})) := by
    unfold CC.powHalfPath
    have e : binary64.hmul m 0xBFE0000000000000 CC.two64 = 0xBFF0000000000000 := by cases m <;> decide +kernel
    rw [e]
    have c : (CC.isInteger 0xBFF0000000000000 && !CC.isInteger 0xBFE0000000000000 && binary64.hle (FPBits.abs binary64 0xBFF0000000000000) 0x40A0000000000000) = true := by decide +kernel
    have d : binary64.heq 0xBFE0000000000000 CC.half64 = false := by decide +kernel
    have d' : binary64.heq 0xBFE0000000000000 0xBFE0000000000000 = true := by decide +kernel
    simp only [c, d, d', if_true, Bool.false_eq_true, if_false, r1, Option.bind_eq_bind, Option.bind_some]; rfl
  rw [a, b]

example : ∃ r, CC.powImpl kernel m CC.two64 0xBFE0000000000000 = some (r, {}) ∧ binary64.RoundsTo m false (1 / Real.sqrt (binary64.val CC.two64)) r :=
  C52_pow_neg_half kernel m two64_val.1 (by rw [two64_val.2]; norm_num) half_bits.1 half_bits.2

end Verif
