import Verif.Lemmas.Cbrt2
import Verif.Props.Sign
import Verif.Props.Nearest

/-!
# Properties of the cube root (C79)

`md` is the rounding mode; one rounding has relative error `2^-53` (nearest) or `2^-52` (directed) for double, `2^-24` or `2^-23` for float.
-/

namespace Verif
open Fmt Real

/-- a real with `c ^ 3 = v`, `v > 0`, is `exp (log v / 3)` -/
theorem cube_root_eq {v c : ℝ} (hv : 0 < v) (h : c ^ 3 = v) : c = exp (log v / 3) := by
  have hc : 0 < c := by
    by_contra hn
    have : c ^ 3 ≤ 0 := by
      have := mul_nonneg (sq_nonneg c) (show 0 ≤ -c by linarith)
      nlinarith
    linarith
  rw [← h, Real.log_pow, show ((3 : ℕ) : ℝ) * log c / 3 = log c by push_cast; ring, Real.exp_log hc]

theorem cbrt_sign_aux {f : Fmt} {exp' log' : ℕ → ℕ} {two three : ℕ} {md : Mode} {K : ℝ} (hK1 : K < 1)
    (H : ∀ ax, f.Finite ax → 0 < f.val ax → f.Finite (cbrtMain f exp' log' two three md ax) ∧
      |f.val (cbrtMain f exp' log' two three md ax) - exp (log (f.val ax) / 3)| ≤ K * exp (log (f.val ax) / 3))
    {x : ℕ} (hx : f.Finite x) {c : ℝ} (hc : c ^ 3 = f.val x) :
    f.Finite (CC.cbrtImpl f exp' log' two three md x) ∧ |f.val (CC.cbrtImpl f exp' log' two three md x) - c| ≤ K * |c| ∧
      f.sgn (CC.cbrtImpl f exp' log' two three md x) = f.sgn x := by
  by_cases h0 : f.val x = 0
  · have hz : FPBits.isZero f x = true := by
      rw [FPBits.isZero_eq]; unfold zeroB; simpa using (f.val_eq_zero_iff x).1 h0
    obtain ⟨a, b⟩ := f.finite_B hx
    have e : CC.cbrtImpl f exp' log' two three md x = x := by
      unfold CC.cbrtImpl; rw [FPBits.isNan_eq, FPBits.isInf_eq, a, b, hz]; simp
    have c0 : c = 0 := by rw [h0] at hc; exact pow_eq_zero_iff (by norm_num) |>.1 hc
    rw [e, h0, c0]
    exact ⟨hx, by simp, rfl⟩
  · rw [cbrtImpl_eq f hx h0]
    have hm := CC.val_mag f x
    have fm : f.Finite (f.mag x) := by
      have h1 := C03_fabs_value (f := f) hx
      rw [CC.abs_eq f hx.valid, (f.finite_B hx).1] at h1
      exact h1.1
    have hp : 0 < f.val (f.mag x) := by rw [hm]; exact abs_pos.2 h0
    obtain ⟨fr, er⟩ := H _ fm hp
    have hc3 : |c| ^ 3 = f.val (f.mag x) := by rw [hm, ← hc, abs_pow]
    rw [← cube_root_eq hp hc3] at er
    have hcp : 0 < |c| := by
      rw [abs_pos]; rintro rfl; exact h0 (by rw [← hc]; norm_num)
    have hrp : 0 < f.val (cbrtMain f exp' log' two three md (f.mag x)) := by
      have := (abs_le.1 er).1
      have := mul_lt_mul_of_pos_right hK1 hcp
      linarith
    have sr : f.sgn (cbrtMain f exp' log' two three md (f.mag x)) = false := sgn_of_pos f hrp
    generalize cbrtMain f exp' log' two three md (f.mag x) = r at *
    by_cases hs : f.sgn x = true
    · have hn : f.val x < 0 := by
        rw [CC.val_eq_sg_abs, hs]
        have := abs_pos.2 h0
        simp only [sg]; simp; exact h0
      have hcn : c < 0 := by
        by_contra hge
        have : 0 ≤ c ^ 3 := pow_nonneg (by linarith) 3
        linarith
      rw [if_pos hs]
      refine ⟨f.finite_hneg fr, ?_, ?_⟩
      · rw [abs_of_neg hcn] at *
        rw [f.val_hneg, show -f.val r - c = -(f.val r - -c) by ring, abs_neg]; exact er
      · rw [f.sgn_hneg, sr, hs]; rfl
    · have hn : 0 < f.val x := by
        rw [CC.val_eq_sg_abs, show f.sgn x = false by simpa using hs]
        simp only [sg]; simp; exact h0
      have hcn : 0 < c := by
        by_contra hge
        have := mul_nonneg (sq_nonneg c) (show 0 ≤ -c by linarith)
        nlinarith
      rw [if_neg hs]
      rw [abs_of_pos hcn] at *
      exact ⟨fr, er, by rw [sr]; simpa using hs⟩

/-- the cube root of a double: for every finite argument and rounding mode the result is finite and within 2.7 roundings of the real cube root `c` -/
theorem C79_cbrt_accuracy (md : Mode) {x : ℕ} (hx : binary64.Finite x) (c : ℝ) (hc : c ^ 3 = binary64.val x) :
    binary64.Finite (CC.cbrtDouble md x) ∧ |binary64.val (CC.cbrtDouble md x) - c| ≤ 2.7 * (if md = .nearest then 1 / 2 ^ 53 else 1 / 2 ^ 52) * |c| := by
  obtain ⟨a, b, -⟩ := cbrt_sign_aux (K := 27 / 10 * ru md) (by have := ru_le md; norm_num at *; linarith) (fun ax => cbrt_core64 md) hx hc
  refine ⟨a, b.trans (le_of_eq ?_)⟩
  rw [ru_eq]; norm_num

example : (3 : ℝ) ^ 3 = binary64.val 0x403B000000000000 ∧ binary64.Finite 0x403B000000000000 ∧ CC.cbrtDouble .up 0x403B000000000000 = 0x4008000000000000 :=
  ⟨by rw [lit64 false 7599824371187712 48 (by decide +kernel) (by decide +kernel) (by decide +kernel) (by decide +kernel)]; norm_num [sg], by decide +kernel, by decide +kernel⟩

/-- the cube root of a float: for every finite argument and rounding mode the result is finite and within 2.7 roundings of the real cube root `c` -/
theorem C79_cbrtf_accuracy (md : Mode) {x : ℕ} (hx : binary32.Finite x) (c : ℝ) (hc : c ^ 3 = binary32.val x) :
    binary32.Finite (CC.cbrtFloat md x) ∧ |binary32.val (CC.cbrtFloat md x) - c| ≤ 2.7 * (if md = .nearest then 1 / 2 ^ 24 else 1 / 2 ^ 23) * |c| := by
  obtain ⟨a, b, -⟩ := cbrt_sign_aux (K := 27 / 10 * ruf md) (by have := ruf_le md; norm_num at *; linarith) (fun ax => cbrt_core32 md) hx hc
  refine ⟨a, b.trans (le_of_eq ?_)⟩
  rw [ruf_eq]; norm_num

example : binary32.Finite 0xC1D80000 ∧ CC.cbrtFloat .down 0xC1D80000 = 0xC0400000 := ⟨by decide +kernel, by decide +kernel⟩

/-- the result has the sign of the argument, and is zero only for a zero -/
theorem C79_cbrt_sign (md : Mode) {x : ℕ} :
    (binary64.Finite x → binary64.sgn (CC.cbrtDouble md x) = binary64.sgn x ∧ (binary64.val (CC.cbrtDouble md x) = 0 ↔ binary64.val x = 0)) ∧
    (binary32.Finite x → binary32.sgn (CC.cbrtFloat md x) = binary32.sgn x ∧ (binary32.val (CC.cbrtFloat md x) = 0 ↔ binary32.val x = 0)) := by
  have key : ∀ v : ℝ, ∃ c : ℝ, c ^ 3 = v := by
    intro v
    rcases lt_trichotomy v 0 with h | h | h
    · refine ⟨-exp (log (-v) / 3), ?_⟩
      rw [show (-exp (log (-v) / 3)) ^ 3 = -(exp (log (-v) / 3) ^ 3) by ring, ← Real.exp_nat_mul, show ((3 : ℕ) : ℝ) * (log (-v) / 3) = log (-v) by push_cast; ring, Real.exp_log (by linarith)]
      ring
    · exact ⟨0, by rw [h]; norm_num⟩
    · refine ⟨exp (log v / 3), ?_⟩
      rw [← Real.exp_nat_mul, show ((3 : ℕ) : ℝ) * (log v / 3) = log v by push_cast; ring, Real.exp_log h]
  have zero : ∀ {r c K v : ℝ}, K < 1 → |r - c| ≤ K * |c| → c ^ 3 = v → (r = 0 ↔ v = 0) := by
    intro r c K v hK h hc
    constructor
    · rintro rfl
      by_contra hv
      have hc0 : 0 < |c| := by rw [abs_pos]; rintro rfl; exact hv (by rw [← hc]; norm_num)
      rw [zero_sub, abs_neg] at h
      have := mul_lt_mul_of_pos_right hK hc0
      linarith
    · rintro rfl
      have c0 : c = 0 := pow_eq_zero_iff (by norm_num) |>.1 hc
      rw [c0] at h
      simpa using h
  constructor
  · intro hx
    obtain ⟨c, hc⟩ := key (binary64.val x)
    have hK : 27 / 10 * ru md < 1 := by have := ru_le md; norm_num at *; linarith
    obtain ⟨-, b, d⟩ := cbrt_sign_aux hK (fun ax => cbrt_core64 md) hx hc
    exact ⟨d, zero hK b hc⟩
  · intro hx
    obtain ⟨c, hc⟩ := key (binary32.val x)
    have hK : 27 / 10 * ruf md < 1 := by have := ruf_le md; norm_num at *; linarith
    obtain ⟨-, b, d⟩ := cbrt_sign_aux hK (fun ax => cbrt_core32 md) hx hc
    exact ⟨d, zero hK b hc⟩

example : binary64.sgn (CC.cbrtDouble .nearest 0x8000000000000001) = true ∧ binary64.val (CC.cbrtDouble .nearest 0x8000000000000001) ≠ 0 :=
  ⟨by decide +kernel, fun h => absurd ((binary64.val_eq_zero_iff _).1 h) (by decide +kernel)⟩

/-- NaNs, infinities and signed zeros are returned unchanged -/
theorem C79_cbrt_special (md : Mode) {x : ℕ} :
    ((binary64.nanB x = true ∨ binary64.infB x = true ∨ binary64.val x = 0) → CC.cbrtDouble md x = x) ∧
    ((binary32.nanB x = true ∨ binary32.infB x = true ∨ binary32.val x = 0) → CC.cbrtFloat md x = x) := by
  have gen : ∀ (f : Fmt) (e l : ℕ → ℕ) (a b : ℕ), (f.nanB x = true ∨ f.infB x = true ∨ f.val x = 0) → CC.cbrtImpl f e l a b md x = x := by
    intro f e l a b h
    unfold CC.cbrtImpl
    rw [FPBits.isNan_eq, FPBits.isInf_eq, FPBits.isZero_eq]
    rcases h with h | h | h
    · simp [h]
    · simp [h]
    · have : f.zeroB x = true := by unfold zeroB; simpa using (f.val_eq_zero_iff x).1 h
      simp [this]
  exact ⟨gen _ _ _ _ _, gen _ _ _ _ _⟩

example : CC.cbrtDouble .nearest 0xFFF0000000000000 = 0xFFF0000000000000 ∧ CC.cbrtDouble .nearest 0x8000000000000000 = 0x8000000000000000 := ⟨by decide +kernel, by decide +kernel⟩

/-- the cube root is odd, bit for bit and in every rounding mode (the sign is removed before and restored after the computation) -/
theorem C79_cbrt_odd (md : Mode) {x : ℕ} :
    (binary64.Finite x → CC.cbrtDouble md (binary64.hneg x) = binary64.hneg (CC.cbrtDouble md x)) ∧
    (binary32.Finite x → CC.cbrtFloat md (binary32.hneg x) = binary32.hneg (CC.cbrtFloat md x)) := by
  have gen : ∀ (f : Fmt) (e l : ℕ → ℕ) (a b : ℕ), f.Finite x → (∀ r, f.Finite r → 0 < f.val r → f.Finite (cbrtMain f e l a b md r)) →
      CC.cbrtImpl f e l a b md (f.hneg x) = f.hneg (CC.cbrtImpl f e l a b md x) := by
    intro f e l a b hx H
    have hnx := f.finite_hneg hx
    by_cases h0 : f.val x = 0
    · have z : ∀ y, f.Finite y → f.val y = 0 → CC.cbrtImpl f e l a b md y = y := by
        intro y hy h
        unfold CC.cbrtImpl
        rw [FPBits.isNan_eq, FPBits.isInf_eq, FPBits.isZero_eq, (f.finite_B hy).1, (f.finite_B hy).2]
        have : f.zeroB y = true := by unfold zeroB; simpa using (f.val_eq_zero_iff y).1 h
        simp [this]
      rw [z _ hx h0, z _ hnx (by rw [f.val_hneg, h0]; norm_num)]
    · have fm : f.Finite (f.mag x) := by
        have h1 := C03_fabs_value (f := f) hx
        rw [CC.abs_eq f hx.valid, (f.finite_B hx).1] at h1
        exact h1.1
      have fr := H _ fm (by rw [CC.val_mag]; exact abs_pos.2 h0)
      rw [cbrtImpl_eq f hx h0, cbrtImpl_eq f hnx (by rw [f.val_hneg]; exact neg_ne_zero.2 h0), f.sgn_hneg, f.mag_hneg]
      cases f.sgn x
      · simp
      · simp only [Bool.not_true, Bool.false_eq_true, if_false, if_true]
        conv_lhs => rw [← f.pack_sgn_mag fr.valid]
        unfold hneg; rw [f.sgn_pack _ (f.mag_lt _), f.mag_pack _ (f.mag_lt _)]; simp
  exact ⟨fun hx => gen _ _ _ _ _ hx (fun r h1 h2 => (cbrt_core64 md h1 h2).1), fun hx => gen _ _ _ _ _ hx (fun r h1 h2 => (cbrt_core32 md h1 h2).1)⟩

example : CC.cbrtDouble .up (binary64.hneg 0x4000000000000000) = binary64.hneg (CC.cbrtDouble .up 0x4000000000000000) ∧
    CC.cbrtDouble .up 0x4000000000000000 ≠ CC.cbrtDouble .down 0x4000000000000000 := ⟨by decide +kernel, by decide +kernel⟩

end Verif
