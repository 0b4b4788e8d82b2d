import Verif.Lemmas.Cbrt4

/-!
# Cube roots of perfect cubes (C80)
-/

namespace Verif
open Fmt Real

theorem cbrt_exact_aux {f : Fmt} {exp' log' : ℕ → ℕ} {two three : ℕ} {md : Mode}
    (H : ∀ ax s, f.Finite ax → 0 < f.val s → f.val s ^ 3 = f.val ax → f.Finite (cbrtMain f exp' log' two three md ax) ∧ f.val (cbrtMain f exp' log' two three md ax) = f.val s)
    {x r : ℕ} (hx : f.Finite x) (hr : f.Finite r) (h0 : f.val r ≠ 0) (h : f.val r ^ 3 = f.val x) : CC.cbrtImpl f exp' log' two three md x = r := by
  have hx0 : f.val x ≠ 0 := by rw [← h]; positivity
  have hm := CC.val_mag f x
  have fm : f.Finite (f.mag x) := by
    have h1 := C03_fabs_value (f := f) hx
    rw [CC.abs_eq f hx.valid, (f.finite_B hx).1] at h1
    exact h1.1
  obtain ⟨a, b⟩ := H (f.mag x) (f.mag r) fm (by rw [CC.val_mag]; exact abs_pos.2 h0) (by rw [CC.val_mag, CC.val_mag, ← h, abs_pow])
  rw [CC.val_mag] at b
  rw [cbrtImpl_eq f hx hx0]
  have hs : f.sgn r = f.sgn x := by
    rcases lt_or_gt_of_ne h0 with g | g
    · rw [sgn_of_neg f g, sgn_of_neg f (x := x)]
      rw [← h, show f.val r ^ 3 = f.val r * f.val r ^ 2 by ring]
      exact mul_neg_of_neg_of_pos g (by positivity)
    · rw [sgn_of_pos f g, sgn_of_pos f (x := x)]
      rw [← h]; positivity
  have sm : f.sgn (cbrtMain f exp' log' two three md (f.mag x)) = false := sgn_of_pos f (by rw [b]; exact abs_pos.2 h0)
  have vr := CC.val_eq_sg_abs (f := f) r
  generalize cbrtMain f exp' log' two three md (f.mag x) = y at *
  rw [← hs]
  cases hsr : f.sgn r
  · rw [hsr, sg_false] at vr
    refine f.eq_of_val_eq a.valid hr.valid ?_ ?_
    · simp only [Bool.false_eq_true, if_false]; rw [b]; linarith
    · simp only [Bool.false_eq_true, if_false]; rw [sm, hsr]
  · rw [hsr, sg_true] at vr
    refine f.eq_of_val_eq (f.finite_hneg a).valid hr.valid ?_ ?_
    · simp only [if_true]; rw [f.val_hneg, b]; linarith
    · simp only [if_true]; rw [f.sgn_hneg, sm, hsr]; rfl

/-- If the real cube root of a finite double is a double `r`, `cbrt` returns exactly `r`, in every rounding mode.
(Cube roots of `±0` are in `C79_cbrt_special`.) -/
theorem C80_cbrt_exact (md : Mode) {x r : ℕ} (hx : binary64.Finite x) (hr : binary64.Finite r) (h0 : binary64.val r ≠ 0) (h : binary64.val r ^ 3 = binary64.val x) :
    CC.cbrtDouble md x = r :=
  cbrt_exact_aux (fun _ _ a b c => cbrt_exact64 md a b c) hx hr h0 h

example : binary64.Finite 0xC03B000000000000 ∧ binary64.Finite 0xC008000000000000 ∧ binary64.val 0xC008000000000000 ^ 3 = binary64.val 0xC03B000000000000 :=
  ⟨by decide +kernel, by decide +kernel, by
    rw [lit64 true (3 * 2 ^ 51) 51 (by decide +kernel) (by decide +kernel) (by decide +kernel) (by decide +kernel),
      lit64 true 7599824371187712 48 (by decide +kernel) (by decide +kernel) (by decide +kernel) (by decide +kernel)]; norm_num [sg]⟩

/-- the same for float -/
theorem C80_cbrtf_exact (md : Mode) {x r : ℕ} (hx : binary32.Finite x) (hr : binary32.Finite r) (h0 : binary32.val r ≠ 0) (h : binary32.val r ^ 3 = binary32.val x) :
    CC.cbrtFloat md x = r :=
  cbrt_exact_aux (fun _ _ a b c => cbrt_exact32 md a b c) hx hr h0 h

example : binary32.Finite 0x41D80000 ∧ binary32.Finite 0x40400000 ∧ binary32.val 0x40400000 ^ 3 = binary32.val 0x41D80000 :=
  ⟨by decide +kernel, by decide +kernel, by
    rw [three32.2, lit32 false (27 * 2 ^ 19) 19 (by decide +kernel) (by decide +kernel) (by decide +kernel) (by decide +kernel)]; norm_num [sg]⟩

end Verif
