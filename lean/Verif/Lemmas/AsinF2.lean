import Verif.Lemmas.AsinF1
import Verif.Lemmas.Asin6

/-!
# Accuracy of float `acos_kernel` near 1
-/

namespace Verif
open Fmt Real

theorem fval_half32 : binary32.Finite 0x3F000000 ∧ binary32.val 0x3F000000 = 1 / 2 := by
  refine ⟨by decide +kernel, ?_⟩
  rw [lit32 false 8388608 24 (by decide +kernel) (by decide +kernel) (by decide +kernel) (by decide +kernel)]; norm_num [sg]
theorem val_two32 : binary32.val 0x40000000 = 2 := by
  rw [lit32 false 8388608 22 (by decide +kernel) (by decide +kernel) (by decide +kernel) (by decide +kernel)]; norm_num [sg]

/-- the square, the cube and the polynomial, relative to the argument -/
theorem asin_cubeF (fused : Bool) (md : Mode) {x : ℕ} (hx : binary32.Finite x) (h1 : 1 / 2 ^ 20 ≤ |binary32.val x|) (h2 : |binary32.val x| ≤ 1 / 2) :
    binary32.Finite (binary32.hmul md x (binary32.hmul md x x)) ∧ binary32.Finite (CC.asinEvalF fused md (binary32.hmul md x x)) ∧
      |binary32.val (CC.asinEvalF fused md (binary32.hmul md x x))| ≤ 19 / 100 ∧
      |binary32.val (binary32.hmul md x (binary32.hmul md x x))| ≤ 251 / 1000 * |binary32.val x| ∧
      |binary32.val (binary32.hmul md x (binary32.hmul md x x)) * binary32.val (CC.asinEvalF fused md (binary32.hmul md x x)) -
        binary32.val x * (binary32.val x ^ 2 * asinP (binary32.val x ^ 2))| ≤ ruf md * (281 / 1000 * |binary32.val x|) := by
  have hu := ruf_pos md
  have hu2 := ruf_le md
  have hu3 := ruf_ge md
  have hη := etaf_le
  have hη0 := etaf_pos
  generalize hX : binary32.val x = X at *
  have hX0 : 0 < |X| := lt_of_lt_of_le (by positivity) h1
  have hη1 : etaf ≤ ruf md * (1 / 2 ^ 40 * |X|) := by
    have a : (1 : ℝ) / 2 ^ 100 ≤ 1 / 2 ^ 24 * (1 / 2 ^ 40 * (1 / 2 ^ 20)) := by norm_num
    have b : 1 / 2 ^ 24 * (1 / 2 ^ 40 * (1 / 2 ^ 20)) ≤ ruf md * (1 / 2 ^ 40 * |X|) :=
      mul_le_mul hu3 (mul_le_mul_of_nonneg_left h1 (by positivity)) (by positivity) hu.le
    linarith
  have hη2 : etaf ≤ ruf md * (1 / 2 ^ 40) := by
    have := mul_le_mul_of_nonneg_left (mul_le_mul_of_nonneg_left h2 (show (0 : ℝ) ≤ 1 / 2 ^ 40 by positivity)) hu.le
    have e := mul_le_mul_of_nonneg_left (show (1 / 2 ^ 40 * (1 / 2) : ℝ) ≤ 1 / 2 ^ 40 by norm_num) hu.le
    linarith
  have hsq : |X * X| ≤ 1 / 4 := le_trans (abs_mul_le h2 h2) (by norm_num)
  have hsq0 : 0 ≤ X * X := mul_self_nonneg X
  -- the square
  have R := binary32.hmul_spec md hx hx
  rw [hX] at R
  obtain ⟨fs, es⟩ := err32 R (le_trans hsq (by norm_num))
  have hs4 : binary32.val 0x3E800000 = 1 / 4 := by
    rw [lit32 false 8388608 25 (by decide +kernel) (by decide +kernel) (by decide +kernel) (by decide +kernel)]; norm_num [sg]
  have hs0 : binary32.val 0 = 0 := by rw [binary32.val_eq_zero_iff]; decide
  obtain ⟨-, s0, s1⟩ := RoundsTo.between R (show binary32.Finite 0 by decide +kernel) (show binary32.Finite 0x3E800000 by decide +kernel)
    (by rw [hs0]; exact hsq0) (by rw [hs4]; rwa [abs_of_nonneg hsq0] at hsq)
  rw [hs0] at s0
  rw [hs4] at s1
  generalize binary32.hmul md x x = sh at *
  have es' : |binary32.val sh - X * X| ≤ ruf md * (251 / 1000) := by
    refine le_trans es ?_
    have := mul_le_mul_of_nonneg_left hsq hu.le
    have e : ruf md * (1 / 4) + ruf md * (1 / 2 ^ 40) = ruf md * (1 / 4 + 1 / 2 ^ 40) := by ring
    have e2 := mul_le_mul_of_nonneg_left (show (1 / 4 + 1 / 2 ^ 40 : ℝ) ≤ 251 / 1000 by norm_num) hu.le
    linarith
  -- the polynomial
  have hr := asinEvalF_ap fused md (ApF.exact (md := md) fs (BX := 1 / 4) (by rw [abs_of_nonneg s0]; exact s1))
  obtain ⟨fr, er, br⟩ := hr
  generalize CC.asinEvalF fused md sh = r at *
  have hrv : |binary32.val r| ≤ 1896 / 10000 := by
    refine le_trans (abs_near er br) ?_
    have := mul_le_mul_of_nonneg_right hu2 (show (0 : ℝ) ≤ (277 / 400) by norm_num)
    norm_num at this ⊢
    linarith
  -- the cube
  have hc : |X * binary32.val sh| ≤ |X| * (1 / 4) := abs_mul_le le_rfl (by rw [abs_of_nonneg s0]; exact s1)
  have R3 := binary32.hmul_spec md hx fs
  rw [hX] at R3
  obtain ⟨f3, e3⟩ := err32 R3 (le_trans hc (le_trans (mul_le_mul_of_nonneg_right h2 (by norm_num)) (by norm_num)))
  generalize binary32.hmul md x sh = x3 at *
  have e3' : |binary32.val x3 - X * binary32.val sh| ≤ ruf md * (|X| * (2501 / 10000)) := by
    refine le_trans e3 ?_
    have := mul_le_mul_of_nonneg_left hc hu.le
    have e : ruf md * (|X| * (1 / 4)) + ruf md * (1 / 2 ^ 40 * |X|) = ruf md * (|X| * (1 / 4 + 1 / 2 ^ 40)) := by ring
    have e2 : ruf md * (|X| * (1 / 4 + 1 / 2 ^ 40)) ≤ ruf md * (|X| * (2501 / 10000)) := mul_le_mul_of_nonneg_left (mul_le_mul_of_nonneg_left (by norm_num) hX0.le) hu.le
    linarith
  refine ⟨f3, fr, by linarith, ?_, ?_⟩
  · refine le_trans (abs_near e3' hc) ?_
    have := mul_le_mul_of_nonneg_right hu2 (show 0 ≤ |X| * (2501 / 10000) by positivity)
    have c : (1 : ℝ) / 2 ^ 23 * (|X| * (2501 / 10000)) ≤ 1 / 10 ^ 6 * |X| := by
      rw [mul_comm |X|, ← mul_assoc]; exact mul_le_mul_of_nonneg_right (by norm_num) hX0.le
    linarith
  · have a1 := abs_mul_le e3' hrv
    have a2 := abs_mul_le hc er
    obtain ⟨-, a3⟩ := asinA_lip (binary32.val sh) (X * X) s0 s1 hsq0 (by rwa [abs_of_nonneg hsq0] at hsq)
    have a4 : |X * (binary32.val sh * asinP (binary32.val sh) - X * X * asinP (X * X))| ≤ |X| * (24 / 100 * (ruf md * (251 / 1000))) :=
      abs_mul_le le_rfl (le_trans a3 (mul_le_mul_of_nonneg_left es' (by norm_num)))
    have e : binary32.val x3 * binary32.val r - X * (X ^ 2 * asinP (X ^ 2)) =
        (binary32.val x3 - X * binary32.val sh) * binary32.val r + X * binary32.val sh * (binary32.val r - asinP (binary32.val sh)) +
          X * (binary32.val sh * asinP (binary32.val sh) - X * X * asinP (X * X)) := by rw [pow_two]; ring
    rw [e]
    refine le_trans (abs_add_le' (abs_add_le' a1 a2) a4) ?_
    have k : ruf md * (|X| * (2501 / 10000)) * (1896 / 10000) + |X| * (1 / 4) * (ruf md * (277 / 400)) + |X| * (24 / 100 * (ruf md * (251 / 1000))) =
        ruf md * ((2501 / 10000 * (1896 / 10000) + 1 / 4 * (277 / 400) + 24 / 100 * (251 / 1000)) * |X|) := by ring
    rw [k]
    exact mul_le_mul_of_nonneg_left (mul_le_mul_of_nonneg_right (by norm_num) hX0.le) hu.le

/-- `u = (1 - |x|) / 2` is computed exactly -/
theorem acos_uF (fused : Bool) (md : Mode) {ax : ℕ} (hx : binary32.Finite ax) (h1 : 1 / 2 ≤ binary32.val ax) (h2 : binary32.val ax < 1) :
    binary32.Finite (CC.multiplyAdd binary32 fused md 0xBF000000 ax 0x3F000000) ∧
      binary32.val (CC.multiplyAdd binary32 fused md 0xBF000000 ax 0x3F000000) = (1 - binary32.val ax) / 2 := by
  have fn : binary32.Finite 0xBF000000 := by decide +kernel
  have vn : binary32.val 0xBF000000 = -(1 / 2) := by
    rw [lit32 true 8388608 24 (by decide +kernel) (by decide +kernel) (by decide +kernel) (by decide +kernel)]; norm_num [sg]
  have hce : -24 ≤ binary32.ce ax := by
    apply binary32.le_ce_of
    have e : ((-24 : ℤ) + (binary32.F : ℤ)) = -1 := by decide
    rw [e, abs_of_nonneg (by linarith)]
    refine le_trans (by norm_num) h1
  have hm := (binary32.mult_ce ax).weaken hce
  obtain ⟨n, hn⟩ := hm
  have m1 : Mult (-25) (-(1 / 2) * binary32.val ax) := by
    refine ⟨-n, ?_⟩
    rw [hn, show (-24 : ℤ) = -25 + 1 by norm_num, zpow_add₀ (by norm_num)]
    push_cast; ring
  have m2 : Mult (-25) (1 / 2 : ℝ) := ⟨2 ^ 24, by push_cast; norm_num⟩
  have hmin : binary32.emin = -149 := by decide
  have eF : ((-25 : ℤ) + (binary32.F : ℤ) + 1) = -1 := by decide
  have eB : ((binary32.bias : ℤ) + 1) = 128 := by decide
  have hbig : (1 : ℝ) < (2 : ℝ) ^ (128 : ℤ) := by
    have := two_zpow_lt_iff.2 (show (0 : ℤ) < 128 by norm_num)
    rwa [zpow_zero] at this
  have hlo : |(-(1 / 2) * binary32.val ax)| ≤ 1 / 2 := by rw [abs_le]; constructor <;> linarith
  obtain ⟨p, fp, vp⟩ := binary32.rep (g := -25) m1 (by rw [hmin]; norm_num) (by rw [eF]; refine le_trans hlo (by norm_num)) (by rw [eB]; exact lt_of_le_of_lt hlo (lt_trans (by norm_num) hbig))
  have R := CC.multiplyAdd_spec binary32 fused md fn hx fval_half32.1 fp (by rw [vp, vn]) (by rw [vn, fval_half32.2]; intro h; linarith) false
  rw [vn, fval_half32.2] at R
  have e : -(1 / 2) * binary32.val ax + 1 / 2 = (1 - binary32.val ax) / 2 := by ring
  have hv : |-(1 / 2) * binary32.val ax + 1 / 2| ≤ 1 / 4 := by rw [abs_le]; constructor <;> linarith
  have := ex32 (-25) R (m1.add m2) (by norm_num) (le_trans hv (by norm_num)) (le_trans hv (by norm_num))
  rwa [e] at this

/-- doubling is exact -/
theorem double_exactF (md : Mode) {w : ℕ} (hw : binary32.Finite w) (h : |binary32.val w| ≤ 1) :
    binary32.Finite (binary32.hmul md 0x40000000 w) ∧ binary32.val (binary32.hmul md 0x40000000 w) = 2 * binary32.val w := by
  have R := binary32.hmul_spec md (show binary32.Finite 0x40000000 by decide +kernel) hw
  rw [val_two32] at R
  have hmin : binary32.emin = -149 := by decide
  have hce := binary32.ce_ge w
  have hF : (binary32.F : ℤ) = 23 := rfl
  refine ex32 (binary32.ce w + 1) R ?_ (by omega) ?_ ?_
  · obtain ⟨n, hn⟩ := binary32.mult_ce w
    refine ⟨n, ?_⟩
    rw [hn, zpow_add₀ (by norm_num)]; ring
  · have := (binary32.abs_val_lt_ce w).le
    rw [hF] at this
    rw [show binary32.ce w + 1 + 24 = (binary32.ce w + 23 + 1) + 1 by ring, zpow_add₀ (by norm_num), abs_mul]
    rw [show |(2 : ℝ)| = 2 by norm_num]
    linarith
  · rw [abs_mul, show |(2 : ℝ)| = 2 by norm_num]
    norm_num
    linarith

theorem acos_big_auxF {u c cv z r r3 U P V : ℝ} (hu : 0 < u) (hu2 : u ≤ 1 / 2 ^ 23) (hu3 : 1 / 2 ^ 24 ≤ u) (hc : 0 < c) (hU0 : 0 ≤ U) (hU : U ≤ 1 / 4)
    (h1 : |cv - c| ≤ u * (1001 / 1000 * c)) (h2 : |z - cv * U| ≤ u * (26 / 100 * c)) (h3 : |r3 - P| ≤ u * (277 / 400)) (hP : |P| ≤ 1895 / 10000)
    (h4 : |r - (z * r3 + cv)| ≤ u * |z * r3 + cv| + (1 + 1 / 2 ^ 20) * u * |z * r3| + u * (1 / 1000 * c)) (h5 : |c + c * (U * P) - V| ≤ 1 / 5 / 2 ^ 24 * c) (hV : c ≤ V) :
    |r - V| ≤ u * (253 / 100 * V) := by
  have u1 : u ≤ 1 / 10 ^ 6 := le_trans hu2 (by norm_num)
  have hV0 : 0 < V := lt_of_lt_of_le hc hV
  have hr3 : |r3| ≤ 19 / 100 := by
    refine le_trans (abs_near h3 hP) ?_
    have := mul_le_mul_of_nonneg_right u1 (show (0 : ℝ) ≤ 277 / 400 by norm_num)
    norm_num at *; linarith
  have hUa : |U| ≤ 1 / 4 := by rwa [abs_of_nonneg hU0]
  have uc : u * c ≤ 1 / 10 ^ 6 * c := mul_le_mul_of_nonneg_right u1 hc.le
  have uc0 : 0 < u * c := mul_pos hu hc
  -- the product
  have k1 : |z - c * U| ≤ u * c * (511 / 1000) := by
    have a : |cv * U - c * U| ≤ u * (1001 / 1000 * c) * (1 / 4) := by rw [← sub_mul]; exact abs_mul_le h1 hUa
    refine le_trans (abs_tri h2 a) ?_
    have : u * (26 / 100 * c) + u * (1001 / 1000 * c) * (1 / 4) = u * c * (26 / 100 + 1001 / 4000) := by ring
    rw [this]
    exact mul_le_mul_of_nonneg_left (by norm_num) uc0.le
  have k2 : |z * r3 - c * (U * P)| ≤ u * c * (271 / 1000) := by
    have a := abs_mul_le k1 hr3
    have b : |c * U * (r3 - P)| ≤ c * (1 / 4) * (u * (277 / 400)) := abs_mul_le (abs_mul_le (le_of_eq (abs_of_pos hc)) hUa) h3
    rw [show z * r3 - c * (U * P) = (z - c * U) * r3 + c * U * (r3 - P) by ring]
    refine le_trans (abs_add_le' a b) ?_
    have : u * c * (511 / 1000) * (19 / 100) + c * (1 / 4) * (u * (277 / 400)) = u * c * (511 / 1000 * (19 / 100) + 1 / 4 * (277 / 400)) := by ring
    rw [this]
    exact mul_le_mul_of_nonneg_left (by norm_num) uc0.le
  have k3 : |z * r3| ≤ 48 / 1000 * c := by
    have a : |c * (U * P)| ≤ c * (1 / 4 * (1895 / 10000)) := abs_mul_le (le_of_eq (abs_of_pos hc)) (abs_mul_le hUa hP)
    refine le_trans (abs_near k2 a) ?_
    linarith
  have k4 : |z * r3 + cv - V| ≤ u * c * (1473 / 1000) := by
    have p5 : |c + c * (U * P) - V| ≤ u * c * (1 / 5) := by
      refine le_trans h5 ?_
      have := mul_le_mul_of_nonneg_right hu3 (show 0 ≤ 1 / 5 * c by positivity)
      linarith
    rw [show z * r3 + cv - V = (z * r3 - c * (U * P)) + (cv - c) + (c + c * (U * P) - V) by ring]
    refine le_trans (abs_add_le' (abs_add_le' k2 h1) p5) ?_
    linarith
  have k5 := abs_near k4 (le_of_eq (abs_of_pos hV0))
  have k6 := mul_le_mul_of_nonneg_left k5 hu.le
  have k7 : u * (u * c * (1473 / 1000)) ≤ u * c * (1 / 1000) := by
    have := mul_le_mul_of_nonneg_right u1 (show 0 ≤ u * c * (1473 / 1000) by positivity)
    linarith
  have k8 : (1 + 1 / 2 ^ 20) * u * |z * r3| ≤ u * c * (49 / 1000) := by
    have a : (1 + 1 / 2 ^ 20) * u * |z * r3| ≤ (1 + 1 / 2 ^ 20) * u * (48 / 1000 * c) := mul_le_mul_of_nonneg_left k3 (by positivity)
    have b : (1 + 1 / 2 ^ 20) * u * (48 / 1000 * c) = u * c * ((1 + 1 / 2 ^ 20) * (48 / 1000)) := by ring
    rw [b] at a
    exact le_trans a (mul_le_mul_of_nonneg_left (by norm_num) uc0.le)
  have k9 := abs_tri h4 k4
  have k10 : u * c ≤ u * V := mul_le_mul_of_nonneg_left hV hu.le
  refine le_trans k9 ?_
  rw [mul_add] at k6
  have e : u * (1 / 1000 * c) = u * c * (1 / 1000) := by ring
  rw [e]
  have e2 : u * (253 / 100 * V) = u * V * (253 / 100) := by ring
  rw [e2]
  linarith

/-- the value of `acos_kernel` for a magnitude above one half, before the sign is taken into account -/
theorem acos_bigF (fused : Bool) (md : Mode) {ax : ℕ} (hx : binary32.Finite ax) (h1 : 1 / 2 ≤ binary32.val ax) (h2 : binary32.val ax < 1) :
    let u := CC.multiplyAdd binary32 fused md 0xBF000000 ax 0x3F000000
    let cv := binary32.hmul md 0x40000000 (CC.sqrt binary32 md u)
    let r := CC.multiplyAdd binary32 fused md (binary32.hmul md cv u) (CC.asinEvalF fused md u) cv
    binary32.Finite r ∧ |binary32.val r - arccos (binary32.val ax)| ≤ ruf md * (253 / 100 * arccos (binary32.val ax)) := by
  intro u cv r
  have hu := ruf_pos md
  have hu2 := ruf_le md
  have hu3 := ruf_ge md
  have hη := etaf_le
  have hη0 := etaf_pos
  obtain ⟨fu, vu⟩ := acos_uF fused md hx h1 h2
  change binary32.Finite u at fu
  change binary32.val u = _ at vu
  have hlow : 1 / 2 ^ 25 ≤ binary32.val u := by
    rw [vu]
    have hce : -24 ≤ binary32.ce ax := by
      apply binary32.le_ce_of
      have e : ((-24 : ℤ) + (binary32.F : ℤ)) = -1 := by decide
      rw [e, abs_of_nonneg (by linarith)]
      refine le_trans (by norm_num) h1
    have hm := (binary32.mult_ce ax).weaken hce
    have m2 : Mult (-24) (1 : ℝ) := ⟨2 ^ 24, by push_cast; norm_num⟩
    have := (m2.sub hm).ge (by linarith)
    rw [abs_of_pos (by linarith)] at this
    have e : (2 : ℝ) ^ (-24 : ℤ) = 1 / 2 ^ 24 := by norm_num
    rw [e] at this
    have e2 : (1 : ℝ) / 2 ^ 25 = 1 / 2 ^ 24 / 2 := by norm_num
    linarith
  have hU : binary32.val u ≤ 1 / 4 := by rw [vu]; linarith
  have hU0 : 0 < binary32.val u := lt_of_lt_of_le (by positivity) hlow
  rw [arccos_half (by linarith) h2.le, ← vu]
  -- square root
  have Rs := C19_sqrt binary32 (by decide) (by decide) md fu hU0.le
  have hs0 : 1 / 2 ^ 13 ≤ √(binary32.val u) := by
    apply Real.le_sqrt_of_sq_le; refine le_trans (by norm_num) hlow
  have hs1 : √(binary32.val u) ≤ 1 / 2 := by
    rw [show (1 / 2 : ℝ) = √(1 / 4) by rw [show (1 / 4 : ℝ) = (1 / 2) ^ 2 by norm_num, Real.sqrt_sq (by norm_num)]]
    exact Real.sqrt_le_sqrt hU
  obtain ⟨fs, es⟩ := err32 Rs (by rw [abs_of_nonneg (by linarith)]; refine le_trans hs1 (by norm_num))
  generalize hS : √(binary32.val u) = S at *
  have hS0 : 0 < S := lt_of_lt_of_le (by positivity) hs0
  rw [abs_of_pos hS0] at es
  have hη1 : etaf ≤ ruf md * (1 / 10 ^ 6 * S) := by
    have a : (1 : ℝ) / 2 ^ 100 ≤ 1 / 2 ^ 24 * (1 / 10 ^ 6 * (1 / 2 ^ 13)) := by norm_num
    have b : 1 / 2 ^ 24 * (1 / 10 ^ 6 * (1 / 2 ^ 13)) ≤ ruf md * (1 / 10 ^ 6 * S) :=
      mul_le_mul hu3 (mul_le_mul_of_nonneg_left hs0 (by positivity)) (by positivity) hu.le
    linarith
  have hsv : |binary32.val (CC.sqrt binary32 md u)| ≤ 1 := by
    refine le_trans (abs_near es (le_of_eq (abs_of_pos hS0))) ?_
    have a : ruf md * S ≤ 1 / 2 ^ 23 * (1 / 2) := mul_le_mul hu2 hs1 hS0.le (by positivity)
    have b : etaf ≤ 1 / 10 := le_trans hη (by norm_num)
    norm_num at a
    linarith
  obtain ⟨fc, vc⟩ := double_exactF md fs hsv
  change binary32.Finite cv at fc
  change binary32.val cv = _ at vc
  have ec : |binary32.val cv - 2 * S| ≤ ruf md * (1001 / 1000 * (2 * S)) := by
    rw [vc, ← mul_sub, abs_mul, show |(2 : ℝ)| = 2 by norm_num]
    have e : ruf md * (1001 / 1000 * (2 * S)) = 2 * (ruf md * S + ruf md * (1 / 1000 * S)) := by ring
    rw [e]
    have : ruf md * (1 / 10 ^ 6 * S) ≤ ruf md * (1 / 1000 * S) := mul_le_mul_of_nonneg_left (mul_le_mul_of_nonneg_right (by norm_num) hS0.le) hu.le
    linarith
  have hcv : |binary32.val cv| ≤ 1001 / 1000 * (2 * S) := by
    refine le_trans (abs_near ec (le_of_eq (abs_of_pos (by linarith)))) ?_
    have a : ruf md * (1001 / 1000 * (2 * S)) ≤ 1 / 10 ^ 6 * (1001 / 1000 * (2 * S)) := mul_le_mul_of_nonneg_right (le_trans hu2 (by norm_num)) (by positivity)
    linarith
  -- the product with u
  have hcu : |binary32.val cv * binary32.val u| ≤ 1001 / 1000 * (2 * S) * (1 / 4) := abs_mul_le hcv (by rw [abs_of_pos hU0]; exact hU)
  obtain ⟨fz, ez⟩ := mul32_err md fc fu (le_trans hcu (by norm_num; linarith))
  have ez2 : |binary32.val (binary32.hmul md cv u) - binary32.val cv * binary32.val u| ≤ ruf md * (26 / 100 * (2 * S)) := by
    refine le_trans ez ?_
    have a := mul_le_mul_of_nonneg_left hcu hu.le
    have e : ruf md * (1001 / 1000 * (2 * S) * (1 / 4)) + ruf md * (1 / 10 ^ 6 * S) = ruf md * ((1001 / 4000 + 1 / (2 * 10 ^ 6)) * (2 * S)) := by ring
    have b : ruf md * ((1001 / 4000 + 1 / (2 * 10 ^ 6)) * (2 * S)) ≤ ruf md * (26 / 100 * (2 * S)) :=
      mul_le_mul_of_nonneg_left (mul_le_mul_of_nonneg_right (by norm_num) (by positivity)) hu.le
    linarith
  have hz : |binary32.val (binary32.hmul md cv u)| ≤ 1 := by
    refine le_trans (abs_near ez2 hcu) ?_
    have a : ruf md * (26 / 100 * (2 * S)) ≤ 1 / 10 ^ 6 * (26 / 100 * (2 * S)) := mul_le_mul_of_nonneg_right (le_trans hu2 (by norm_num)) (by positivity)
    linarith
  -- the polynomial
  obtain ⟨fr, er, br⟩ := asinEvalF_ap fused md (ApF.exact (md := md) fu (BX := 1 / 4) (by rw [abs_of_pos hU0]; exact hU))
  have hr3 : |binary32.val (CC.asinEvalF fused md u)| ≤ 1 := by
    refine le_trans (abs_near er br) ?_
    have := mul_le_mul_of_nonneg_right (le_trans hu2 (show (1 : ℝ) / 2 ^ 23 ≤ 1 / 10 by norm_num)) (show (0 : ℝ) ≤ 277 / 400 by norm_num)
    norm_num at *; linarith
  obtain ⟨fo, eo⟩ := ma32_err fused md fz fr fc (le_trans (abs_mul_le hz hr3) (by norm_num)) (le_trans hcv (by norm_num; linarith))
  refine ⟨fo, ?_⟩
  have h3η : 3 * etaf ≤ ruf md * (1 / 1000 * (2 * S)) := by
    have : 3 * (ruf md * (1 / 10 ^ 6 * S)) = ruf md * (3 / (2 * 10 ^ 6) * (2 * S)) := by ring
    have b : ruf md * (3 / (2 * 10 ^ 6) * (2 * S)) ≤ ruf md * (1 / 1000 * (2 * S)) := mul_le_mul_of_nonneg_left (mul_le_mul_of_nonneg_right (by norm_num) (by positivity)) hu.le
    linarith
  have pol := le_trans (asinP_arcsin hS0.le hs1) (mul_le_mul_of_nonneg_right (show (1 : ℝ) / 5 / 2 ^ 53 ≤ 1 / 5 / 2 ^ 24 by norm_num) hS0.le)
  have hsq : S ^ 2 = binary32.val u := by rw [← hS]; exact Real.sq_sqrt hU0.le
  rw [hsq] at pol
  have pol2 : |2 * S + 2 * S * (binary32.val u * asinP (binary32.val u)) - 2 * arcsin S| ≤ 1 / 5 / 2 ^ 24 * (2 * S) := by
    rw [show 2 * S + 2 * S * (binary32.val u * asinP (binary32.val u)) - 2 * arcsin S = 2 * (S + S * (binary32.val u * asinP (binary32.val u)) - arcsin S) by ring,
      abs_mul, show |(2 : ℝ)| = 2 by norm_num]
    linarith
  have hle : S ≤ arcsin S := by
    have := abs_le_arcsin (x := S) (by rw [abs_of_pos hS0]; linarith)
    rwa [abs_of_pos hS0, abs_of_nonneg (Real.arcsin_nonneg.2 hS0.le)] at this
  exact acos_big_auxF hu hu2 hu3 (by linarith) hU0.le hU ec ez2 er (le_trans br (by norm_num)) (le_trans eo (by linarith)) pol2 (by linarith)

end Verif
