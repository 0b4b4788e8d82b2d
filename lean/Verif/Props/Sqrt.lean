import Verif.Lemmas.Sqrt
import Verif.Props.Fma

/-!
# C19: square root
-/

namespace Verif
open Fmt
variable (f : Fmt)

theorem sqrt_not_special {x : ℕ} (hx : f.Finite x) (h0 : f.val x ≠ 0) :
    ((x == FPBits.inf f false) || FPBits.isZero f x || FPBits.isNan f x) = false := by
  have h1 : (x == FPBits.inf f false) = false := by
    rw [beq_eq_false_iff_ne]
    rintro rfl
    rw [FPBits.inf_eq] at hx
    exact not_finite_of_inf f (f.isInf_inf false) hx
  have h2 : FPBits.isZero f x = false := by
    rw [FPBits.isZero_eq, ← Bool.not_eq_true, ← ne_eq, ne_eq, show f.zeroB x = true ↔ f.val x = 0 by
      rw [f.val_eq_zero_iff]; simp [zeroB]]
    exact h0
  rw [h1, h2, FPBits.isNan_eq, (f.finite_B hx).1]; rfl

theorem not_nanB_of_inf' {x : ℕ} (h : f.IsInf x) : f.nanB x = false := by
  rw [f.isInf_iff] at h
  rw [← Bool.not_eq_true, f.nanB_iff h.1, f.isNaN_iff]
  rintro ⟨-, h2⟩
  omega

theorem quiet_hneg {x : ℕ} (h : IsQuietNaN f x) : IsQuietNaN f (f.hneg x) := by
  obtain ⟨h1, h2⟩ := h
  have h3 := (f.isNaN_iff x).1 h1
  refine ⟨(f.isNaN_iff _).2 ⟨f.valid_hneg x, by rw [f.mag_hneg]; exact h3.2⟩, ?_⟩
  rw [f.frac_eq, f.mag_hneg, ← f.frac_eq]; exact h2

/-- C19.  In every rounding mode the square root of a finite non-negative number is the correctly rounded real
square root (a zero keeps its sign). -/
theorem C19_sqrt (hE : 3 ≤ f.E) (hb : f.F + 2 ≤ f.bias) (m : Mode) {x : ℕ} (hx : f.Finite x) (h : 0 ≤ f.val x) :
    f.RoundsTo m (f.sgn x) (Real.sqrt (f.val x)) (CC.sqrt f m x) := by
  by_cases h0 : f.val x = 0
  · have hz : FPBits.isZero f x = true := by
      rw [FPBits.isZero_eq]; rw [f.val_eq_zero_iff] at h0; simp [zeroB, h0]
    have : CC.sqrt f m x = x := by unfold CC.sqrt; rw [hz]; simp
    rw [this, h0, Real.sqrt_zero]
    have hr := f.roundsTo_self (m := m) hx
    rwa [h0] at hr
  · have hs : f.sgn x = false := by
      cases hs : f.sgn x with
      | false => rfl
      | true =>
        exfalso
        apply h0
        rw [f.val_eq, hs, sg_true] at h ⊢
        have h2 : 0 ≤ (f.umag (f.mag x) : ℝ) * f.minSub := mul_nonneg (Nat.cast_nonneg _) f.minSub_pos.le
        linarith
    have hr := CC.sqrtCalcBits_spec f hE hb m hx h0 hs
    have : CC.sqrt f m x = CC.sqrtCalcBits f m x := by
      unfold CC.sqrt
      rw [sqrt_not_special f hx h0, FPBits.isNeg_eq f hx.valid, hs]; simp
    rw [this, hs]; exact hr

/-- C19, remaining arguments: `+∞` and NaN are returned unchanged (as is a zero), every negative number and `-∞` gives a
quiet NaN. -/
theorem C19_sqrt_special (m : Mode) {x : ℕ} (hx : f.Valid x) :
    (x = f.inf false ∨ f.IsNaN x ∨ f.val x = 0 → CC.sqrt f m x = x) ∧
    ((f.Finite x ∧ f.val x < 0) ∨ x = f.inf true → IsQuietNaN f (CC.sqrt f m x)) := by
  constructor
  · unfold CC.sqrt
    rintro (h | h | h)
    · rw [h, ← FPBits.inf_eq]; simp
    · have := (f.nanB_iff hx).2 h
      rw [← FPBits.isNan_eq] at this
      simp [this]
    · have : f.zeroB x = true := by rw [f.val_eq_zero_iff] at h; simp [zeroB, h]
      rw [← FPBits.isZero_eq] at this
      simp [this]
  · intro h
    have key : f.sgn x = true ∧ ((x == FPBits.inf f false) || FPBits.isZero f x || FPBits.isNan f x) = false := by
      rcases h with ⟨h1, h2⟩ | rfl
      · exact ⟨sgn_of_neg f h2, sqrt_not_special f h1 (ne_of_lt h2)⟩
      · refine ⟨f.sgn_inf true, ?_⟩
        have hne : (f.inf true == FPBits.inf f false) = false := by
          rw [beq_eq_false_iff_ne, FPBits.inf_eq]
          intro h
          have := congrArg f.sgn h
          rw [f.sgn_inf, f.sgn_inf] at this
          simp at this
        have hm : f.mag (f.inf true) = f.infMag := by
          have := (f.isInf_iff _).1 (f.isInf_inf true); exact this.2
        have hp := f.infMag_pos
        have hF := f.two_pow_F_pos
        rw [hne, FPBits.isZero_eq, FPBits.isNan_eq, not_nanB_of_inf' f (f.isInf_inf true)]
        simp only [zeroB, hm, Bool.or_false, Bool.false_or, decide_eq_false_iff_not]
        rw [pow_succ] at hp; omega
    unfold CC.sqrt
    rw [key.2, FPBits.isNeg_eq f hx, key.1]
    simp only [Bool.false_eq_true, if_false, if_true]
    have hq := quietNaN_quiet f false 0
    exact quiet_hneg f hq

/-- C19: a representable square root is returned exactly. -/
theorem C19_sqrt_exact (hE : 3 ≤ f.E) (hb : f.F + 2 ≤ f.bias) (m : Mode) {x y : ℕ} (hx : f.Finite x) (hy : f.Finite y)
    (h0 : 0 < f.val y) (h : f.val x = f.val y * f.val y) : CC.sqrt f m x = y := by
  have hr := C19_sqrt f hE hb m hx (by rw [h]; positivity)
  rw [h, Real.sqrt_mul_self h0.le] at hr
  exact RoundsTo.exact_eq f hy hr (fun h => absurd h h0.ne')

/-- C19: the square root is monotone in every rounding mode. -/
theorem C19_sqrt_monotone (hE : 3 ≤ f.E) (hb : f.F + 2 ≤ f.bias) (m : Mode) {x y : ℕ} (hx : f.Finite x) (hy : f.Finite y)
    (h0 : 0 ≤ f.val x) (h : f.val x ≤ f.val y) : f.xval (CC.sqrt f m x) ≤ f.xval (CC.sqrt f m y) :=
  RoundsTo.mono (C19_sqrt f hE hb m hx h0) (C19_sqrt f hE hb m hy (h0.trans h)) (Real.sqrt_le_sqrt h)

example : (3 ≤ binary64.E ∧ binary64.F + 2 ≤ binary64.bias) ∧ (3 ≤ binary32.E ∧ binary32.F + 2 ≤ binary32.bias) := by decide
-- `sqrt(2)` in the four modes, `sqrt` of the least subnormal and of a negative number
example : CC.sqrt binary64 .nearest 0x4000000000000000 = 0x3FF6A09E667F3BCD ∧ CC.sqrt binary64 .up 0x4000000000000000 = 0x3FF6A09E667F3BCD ∧
    CC.sqrt binary64 .down 0x4000000000000000 = 0x3FF6A09E667F3BCC ∧ CC.sqrt binary64 .zero 0x4000000000000000 = 0x3FF6A09E667F3BCC ∧
    CC.sqrt binary64 .nearest 1 = 0x1E60000000000000 ∧ binary64.IsNaN (CC.sqrt binary64 .nearest 0xBFF0000000000000) := by decide +kernel

end Verif
