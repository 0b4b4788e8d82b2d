import Verif.Lemmas.Asin3
import Verif.Props.Sqrt
import Verif.Props.Sign
import Mathlib.Analysis.Real.Pi.Bounds

/-!
# Error of the cubic term of arcsine, Lipschitz bounds
-/

namespace Verif
open Fmt Real

/-- bound and Lipschitz constant on `[0, 1/4]` -/
def LB (q : ℝ → ℝ) (B L : ℝ) : Prop := ∀ s t, 0 ≤ s → s ≤ 1 / 4 → 0 ≤ t → t ≤ 1 / 4 → |q s| ≤ B ∧ |q s - q t| ≤ L * |s - t|

theorem LB.const (c : ℝ) {B : ℝ} (h : |c| ≤ B) : LB (fun _ => c) B 0 := fun s t _ _ _ _ => ⟨h, by simp⟩

theorem LB.step {q : ℝ → ℝ} {B L : ℝ} (h : LB q B L) (c : ℝ) {C B' L' : ℝ} (hc : |c| ≤ C) (hL0 : 0 ≤ L) (hB : C + 1 / 4 * B ≤ B') (hL : B + 1 / 4 * L ≤ L') :
    LB (fun s => c + s * q s) B' L' := by
  intro s t s0 s1 t0 t1
  obtain ⟨h1, h2⟩ := h s t s0 s1 t0 t1
  obtain ⟨h3, -⟩ := h t s t0 t1 s0 s1
  have hs : |s| ≤ 1 / 4 := by rw [abs_of_nonneg s0]; exact s1
  constructor
  · exact le_trans (abs_add_le' hc (abs_mul_le hs h1)) hB
  · have e : (fun s => c + s * q s) s - (fun s => c + s * q s) t = s * (q s - q t) + (s - t) * q t := by ring
    rw [e]
    refine le_trans (abs_add_le' (abs_mul_le hs h2) (abs_mul_le le_rfl h3)) ?_
    have := mul_le_mul_of_nonneg_right hL (abs_nonneg (s - t))
    linarith

theorem asinP_lip : LB asinP (189 / 1000) (106 / 1000) := by
  have l11 := LB.const (4602030130368581 / 2 ^ 57) (B := (4 / 125)) (by norm_num [abs_le])
  have l10 := l11.step (-4685721306087269 / 2 ^ 58) (C := (163 / 10000)) (B' := (243 / 10000)) (L' := (4 / 125)) (by norm_num [abs_le]) (by norm_num) (by norm_num) (by norm_num)
  have l9 := l10.step (2817569923332003 / 2 ^ 57) (C := (49 / 2500)) (B' := (257 / 10000)) (L' := (323 / 10000)) (by norm_num [abs_le]) (by norm_num) (by norm_num) (by norm_num)
  have l8 := l9.step (7515851594203209 / 2 ^ 60) (C := (33 / 5000)) (B' := (131 / 10000)) (L' := (169 / 5000)) (by norm_num [abs_le]) (by norm_num) (by norm_num) (by norm_num)
  have l7 := l8.step (7016398763515161 / 2 ^ 59) (C := (61 / 5000)) (B' := (31 / 2000)) (L' := (27 / 1250)) (by norm_num [abs_le]) (by norm_num) (by norm_num) (by norm_num)
  have l6 := l7.step (2001016989263467 / 2 ^ 57) (C := (139 / 10000)) (B' := (89 / 5000)) (L' := (209 / 10000)) (by norm_num [abs_le]) (by norm_num) (by norm_num) (by norm_num)
  have l5 := l6.step (1250901783711773 / 2 ^ 56) (C := (87 / 5000)) (B' := (219 / 10000)) (L' := (231 / 10000)) (by norm_num [abs_le]) (by norm_num) (by norm_num) (by norm_num)
  have l4 := l5.step (6448219253556811 / 2 ^ 58) (C := (14 / 625)) (B' := (279 / 10000)) (L' := (277 / 10000)) (by norm_num [abs_le]) (by norm_num) (by norm_num) (by norm_num)
  have l3 := l4.step (4378501779311471 / 2 ^ 57) (C := (19 / 625)) (B' := (187 / 5000)) (L' := (349 / 10000)) (by norm_num [abs_le]) (by norm_num) (by norm_num) (by norm_num)
  have l2 := l3.step (1608428426836271 / 2 ^ 55) (C := (447 / 10000)) (B' := (541 / 10000)) (L' := (231 / 5000)) (by norm_num [abs_le]) (by norm_num) (by norm_num) (by norm_num)
  have l1 := l2.step (5404319553092955 / 2 ^ 56) (C := (751 / 10000)) (B' := (887 / 10000)) (L' := (657 / 10000)) (by norm_num [abs_le]) (by norm_num) (by norm_num) (by norm_num)
  have l0 := l1.step (46912496118439 / 2 ^ 48) (C := (1667 / 10000)) (B' := (1889 / 10000)) (L' := (263 / 2500)) (by norm_num [abs_le]) (by norm_num) (by norm_num) (by norm_num)
  intro s t s0 s1 t0 t1
  have := l0 s t s0 s1 t0 t1
  exact ⟨le_trans this.1 (by norm_num), le_trans this.2 (mul_le_mul_of_nonneg_right (by norm_num) (abs_nonneg _))⟩

theorem asinA_lip : LB (fun s => s * asinP s) (48 / 1000) (24 / 100) := by
  have l := asinP_lip.step 0 (C := 0) (B' := 48 / 1000) (L' := 24 / 100) (by norm_num) (by norm_num) (by norm_num) (by norm_num)
  intro s t s0 s1 t0 t1
  have := l s t s0 s1 t0 t1
  simp only [zero_add] at this
  exact this

theorem asinP_arcsin_abs {x : ℝ} (h : |x| ≤ 1 / 2) : |x + x * (x ^ 2 * asinP (x ^ 2)) - arcsin x| ≤ 1 / 5 / 2 ^ 53 * |x| := by
  rcases le_total 0 x with h0 | h0
  · rw [abs_of_nonneg h0] at h ⊢; exact asinP_arcsin h0 h
  · rw [abs_of_nonpos h0] at h ⊢
    have := asinP_arcsin (x := -x) (by linarith) h
    rw [arcsin_neg, neg_sq] at this
    rw [← abs_neg]
    convert this using 2
    ring

theorem abs_le_arcsin {x : ℝ} (h : |x| ≤ 1) : |x| ≤ |arcsin x| := by
  have h1 := Real.sin_arcsin (by linarith [neg_abs_le x]) (le_trans (le_abs_self x) h)
  conv_lhs => rw [← h1]
  exact Real.abs_sin_le_abs

/-- the square, the cube and the polynomial, relative to the argument -/
theorem asin_cube (fused : Bool) (md : Mode) {x : ℕ} (hx : binary64.Finite x) (h1 : 1 / 2 ^ 20 ≤ |binary64.val x|) (h2 : |binary64.val x| ≤ 1 / 2) :
    binary64.Finite (binary64.hmul md x (binary64.hmul md x x)) ∧ binary64.Finite (CC.asinEval fused md (binary64.hmul md x x)) ∧
      |binary64.val (CC.asinEval fused md (binary64.hmul md x x))| ≤ 19 / 100 ∧
      |binary64.val (binary64.hmul md x (binary64.hmul md x x))| ≤ 251 / 1000 * |binary64.val x| ∧
      |binary64.val (binary64.hmul md x (binary64.hmul md x x)) * binary64.val (CC.asinEval fused md (binary64.hmul md x x)) -
        binary64.val x * (binary64.val x ^ 2 * asinP (binary64.val x ^ 2))| ≤ ru md * (258 / 1000 * |binary64.val x|) := by
  have hu := ru_pos md
  have hu2 := ru_le md
  have hu3 := ru_ge md
  have hη := eta_le
  have hη0 := eta_pos
  generalize hX : binary64.val x = X at *
  have hX0 : 0 < |X| := lt_of_lt_of_le (by positivity) h1
  have hη1 : eta ≤ ru md * (1 / 2 ^ 40 * |X|) := by
    have a : (1 : ℝ) / 2 ^ 200 ≤ 1 / 2 ^ 53 * (1 / 2 ^ 40 * (1 / 2 ^ 20)) := by norm_num
    have b : 1 / 2 ^ 53 * (1 / 2 ^ 40 * (1 / 2 ^ 20)) ≤ ru md * (1 / 2 ^ 40 * |X|) :=
      mul_le_mul hu3 (mul_le_mul_of_nonneg_left h1 (by positivity)) (by positivity) hu.le
    linarith
  have hη2 : eta ≤ ru md * (1 / 2 ^ 40) := by
    have := mul_le_mul_of_nonneg_left (mul_le_mul_of_nonneg_left h2 (show (0 : ℝ) ≤ 1 / 2 ^ 40 by positivity)) hu.le
    have e := mul_le_mul_of_nonneg_left (show (1 / 2 ^ 40 * (1 / 2) : ℝ) ≤ 1 / 2 ^ 40 by norm_num) hu.le
    linarith
  have hsq : |X * X| ≤ 1 / 4 := le_trans (abs_mul_le h2 h2) (by norm_num)
  have hsq0 : 0 ≤ X * X := mul_self_nonneg X
  -- the square
  have R := binary64.hmul_spec md hx hx
  rw [hX] at R
  obtain ⟨fs, es⟩ := err64 R (le_trans hsq (by norm_num))
  have hs4 : binary64.val 0x3FD0000000000000 = 1 / 4 := by
    rw [lit64 false 4503599627370496 54 (by decide +kernel) (by decide +kernel) (by decide +kernel) (by decide +kernel)]; norm_num [sg]
  have hs0 : binary64.val 0 = 0 := by rw [binary64.val_eq_zero_iff]; decide
  obtain ⟨-, s0, s1⟩ := RoundsTo.between R (show binary64.Finite 0 by decide +kernel) (show binary64.Finite 0x3FD0000000000000 by decide +kernel)
    (by rw [hs0]; exact hsq0) (by rw [hs4]; rwa [abs_of_nonneg hsq0] at hsq)
  rw [hs0] at s0
  rw [hs4] at s1
  generalize binary64.hmul md x x = sh at *
  have es' : |binary64.val sh - X * X| ≤ ru md * (251 / 1000) := by
    refine le_trans es ?_
    have := mul_le_mul_of_nonneg_left hsq hu.le
    have e : ru md * (1 / 4) + ru md * (1 / 2 ^ 40) = ru md * (1 / 4 + 1 / 2 ^ 40) := by ring
    have e2 := mul_le_mul_of_nonneg_left (show (1 / 4 + 1 / 2 ^ 40 : ℝ) ≤ 251 / 1000 by norm_num) hu.le
    linarith
  -- the polynomial
  have hr := asinEval_ap fused md (Ap.exact (md := md) fs (BX := 1 / 4) (by rw [abs_of_nonneg s0]; exact s1))
  obtain ⟨fr, er, br⟩ := hr
  generalize CC.asinEval fused md sh = r at *
  have hrv : |binary64.val r| ≤ 1896 / 10000 := by
    refine le_trans (abs_near er br) ?_
    have := mul_le_mul_of_nonneg_right hu2 (show (0 : ℝ) ≤ (5951 / 10000) by norm_num)
    norm_num at this ⊢
    linarith
  -- the cube
  have hc : |X * binary64.val sh| ≤ |X| * (1 / 4) := abs_mul_le le_rfl (by rw [abs_of_nonneg s0]; exact s1)
  have R3 := binary64.hmul_spec md hx fs
  rw [hX] at R3
  obtain ⟨f3, e3⟩ := err64 R3 (le_trans hc (le_trans (mul_le_mul_of_nonneg_right h2 (by norm_num)) (by norm_num)))
  generalize binary64.hmul md x sh = x3 at *
  have e3' : |binary64.val x3 - X * binary64.val sh| ≤ ru md * (|X| * (2501 / 10000)) := by
    refine le_trans e3 ?_
    have := mul_le_mul_of_nonneg_left hc hu.le
    have e : ru md * (|X| * (1 / 4)) + ru md * (1 / 2 ^ 40 * |X|) = ru md * (|X| * (1 / 4 + 1 / 2 ^ 40)) := by ring
    have e2 : ru md * (|X| * (1 / 4 + 1 / 2 ^ 40)) ≤ ru md * (|X| * (2501 / 10000)) := mul_le_mul_of_nonneg_left (mul_le_mul_of_nonneg_left (by norm_num) hX0.le) hu.le
    linarith
  refine ⟨f3, fr, by linarith, ?_, ?_⟩
  · refine le_trans (abs_near e3' hc) ?_
    have := mul_le_mul_of_nonneg_right hu2 (show 0 ≤ |X| * (2501 / 10000) by positivity)
    have c : (1 : ℝ) / 2 ^ 52 * (|X| * (2501 / 10000)) ≤ 1 / 10 ^ 6 * |X| := by
      rw [mul_comm |X|, ← mul_assoc]; exact mul_le_mul_of_nonneg_right (by norm_num) hX0.le
    linarith
  · have a1 := abs_mul_le e3' hrv
    have a2 := abs_mul_le hc er
    obtain ⟨-, a3⟩ := asinA_lip (binary64.val sh) (X * X) s0 s1 hsq0 (by rwa [abs_of_nonneg hsq0] at hsq)
    have a4 : |X * (binary64.val sh * asinP (binary64.val sh) - X * X * asinP (X * X))| ≤ |X| * (24 / 100 * (ru md * (251 / 1000))) :=
      abs_mul_le le_rfl (le_trans a3 (mul_le_mul_of_nonneg_left es' (by norm_num)))
    have e : binary64.val x3 * binary64.val r - X * (X ^ 2 * asinP (X ^ 2)) =
        (binary64.val x3 - X * binary64.val sh) * binary64.val r + X * binary64.val sh * (binary64.val r - asinP (binary64.val sh)) +
          X * (binary64.val sh * asinP (binary64.val sh) - X * X * asinP (X * X)) := by rw [pow_two]; ring
    rw [e]
    refine le_trans (abs_add_le' (abs_add_le' a1 a2) a4) ?_
    have k : ru md * (|X| * (2501 / 10000)) * (1896 / 10000) + |X| * (1 / 4) * (ru md * (5951 / 10000)) + |X| * (24 / 100 * (ru md * (251 / 1000))) =
        ru md * ((2501 / 10000 * (1896 / 10000) + 1 / 4 * (5951 / 10000) + 24 / 100 * (251 / 1000)) * |X|) := by ring
    rw [k]
    exact mul_le_mul_of_nonneg_left (mul_le_mul_of_nonneg_right (by norm_num) hX0.le) hu.le

end Verif
