import Verif.Lemmas.Asin5
import Verif.Lemmas.Exp7

/-!
# Accuracy of `acos_kernel` near 1
-/

namespace Verif
open Fmt Real

/-- `arccos a = 2 arcsin sqrt((1 - a) / 2)` -/
theorem arccos_half {a : ℝ} (h0 : 0 ≤ a) (h1 : a ≤ 1) : arccos a = 2 * arcsin (√((1 - a) / 2)) := by
  have hu : 0 ≤ (1 - a) / 2 := by linarith
  have hs1 : √((1 - a) / 2) ≤ 1 := le_trans (Real.sqrt_le_sqrt (by linarith : (1 - a) / 2 ≤ 1)) (by simp)
  have hs0 := Real.sqrt_nonneg ((1 - a) / 2)
  have e : a = cos (2 * arcsin (√((1 - a) / 2))) := by
    rw [Real.cos_two_mul, Real.cos_arcsin, Real.sq_sqrt (by rw [Real.sq_sqrt hu]; linarith), Real.sq_sqrt hu]; ring
  conv_lhs => rw [e]
  apply Real.arccos_cos
  · have := Real.arcsin_nonneg.2 hs0; linarith
  · have := Real.arcsin_le_pi_div_two (√((1 - a) / 2)); linarith

/-- `u = (1 - |x|) / 2` is computed exactly -/
theorem acos_u (fused : Bool) (md : Mode) {ax : ℕ} (hx : binary64.Finite ax) (h1 : 1 / 2 ≤ binary64.val ax) (h2 : binary64.val ax < 1) :
    binary64.Finite (CC.multiplyAdd binary64 fused md 0xBFE0000000000000 ax 0x3FE0000000000000) ∧
      binary64.val (CC.multiplyAdd binary64 fused md 0xBFE0000000000000 ax 0x3FE0000000000000) = (1 - binary64.val ax) / 2 := by
  have fn : binary64.Finite 0xBFE0000000000000 := by decide +kernel
  have vn : binary64.val 0xBFE0000000000000 = -(1 / 2) := by
    rw [lit64 true 4503599627370496 53 (by decide +kernel) (by decide +kernel) (by decide +kernel) (by decide +kernel)]; norm_num [sg]
  have hce : -53 ≤ binary64.ce ax := by
    apply binary64.le_ce_of
    have e : ((-53 : ℤ) + (binary64.F : ℤ)) = -1 := by decide
    rw [e, abs_of_nonneg (by linarith)]
    refine le_trans (by norm_num) h1
  have hm := (binary64.mult_ce ax).weaken hce
  obtain ⟨n, hn⟩ := hm
  have m1 : Mult (-54) (-(1 / 2) * binary64.val ax) := by
    refine ⟨-n, ?_⟩
    rw [hn, show (-53 : ℤ) = -54 + 1 by norm_num, zpow_add₀ (by norm_num)]
    push_cast; ring
  have m2 : Mult (-54) (1 / 2 : ℝ) := ⟨2 ^ 53, by push_cast; norm_num⟩
  have hmin : binary64.emin = -1074 := by decide
  have eF : ((-54 : ℤ) + (binary64.F : ℤ) + 1) = -1 := by decide
  have eB : ((binary64.bias : ℤ) + 1) = 1024 := by decide
  have hbig : (1 : ℝ) < (2 : ℝ) ^ (1024 : ℤ) := by
    have := two_zpow_lt_iff.2 (show (0 : ℤ) < 1024 by norm_num)
    rwa [zpow_zero] at this
  have hlo : |(-(1 / 2) * binary64.val ax)| ≤ 1 / 2 := by rw [abs_le]; constructor <;> linarith
  obtain ⟨p, fp, vp⟩ := binary64.rep (g := -54) m1 (by rw [hmin]; norm_num) (by rw [eF]; refine le_trans hlo (by norm_num)) (by rw [eB]; exact lt_of_le_of_lt hlo (lt_trans (by norm_num) hbig))
  have R := CC.multiplyAdd_spec binary64 fused md fn hx fval_half64.1 fp (by rw [vp, vn]) (by rw [vn, fval_half64.2]; intro h; linarith) false
  rw [vn, fval_half64.2] at R
  have e : -(1 / 2) * binary64.val ax + 1 / 2 = (1 - binary64.val ax) / 2 := by ring
  have hv : |-(1 / 2) * binary64.val ax + 1 / 2| ≤ 1 / 4 := by rw [abs_le]; constructor <;> linarith
  have := ex64 (-54) R (m1.add m2) (by norm_num) (le_trans hv (by norm_num)) (le_trans hv (by norm_num))
  rwa [e] at this

/-- doubling is exact -/
theorem double_exact (md : Mode) {w : ℕ} (hw : binary64.Finite w) (h : |binary64.val w| ≤ 1) :
    binary64.Finite (binary64.hmul md 0x4000000000000000 w) ∧ binary64.val (binary64.hmul md 0x4000000000000000 w) = 2 * binary64.val w := by
  have R := binary64.hmul_spec md (show binary64.Finite 0x4000000000000000 by decide +kernel) hw
  rw [val_two64] at R
  have hmin : binary64.emin = -1074 := by decide
  have hce := binary64.ce_ge w
  have hF : (binary64.F : ℤ) = 52 := rfl
  refine ex64 (binary64.ce w + 1) R ?_ (by omega) ?_ ?_
  · obtain ⟨n, hn⟩ := binary64.mult_ce w
    refine ⟨n, ?_⟩
    rw [hn, zpow_add₀ (by norm_num)]; ring
  · have := (binary64.abs_val_lt_ce w).le
    rw [hF] at this
    rw [show binary64.ce w + 1 + 53 = (binary64.ce w + 52 + 1) + 1 by ring, zpow_add₀ (by norm_num), abs_mul]
    rw [show |(2 : ℝ)| = 2 by norm_num]
    linarith
  · rw [abs_mul, show |(2 : ℝ)| = 2 by norm_num]
    norm_num
    linarith

theorem acos_big_aux {u c cv z r r3 U P V : ℝ} (hu : 0 < u) (hu2 : u ≤ 1 / 2 ^ 52) (hu3 : 1 / 2 ^ 53 ≤ u) (hc : 0 < c) (hU0 : 0 ≤ U) (hU : U ≤ 1 / 4)
    (h1 : |cv - c| ≤ u * (1001 / 1000 * c)) (h2 : |z - cv * U| ≤ u * (26 / 100 * c)) (h3 : |r3 - P| ≤ u * (5951 / 10000)) (hP : |P| ≤ 1895 / 10000)
    (h4 : |r - (z * r3 + cv)| ≤ u * |z * r3 + cv| + (1 + 1 / 2 ^ 50) * u * |z * r3| + u * (1 / 1000 * c)) (h5 : |c + c * (U * P) - V| ≤ 1 / 5 / 2 ^ 53 * c) (hV : c ≤ V) :
    |r - V| ≤ u * (25 / 10 * V) := by
  have u1 : u ≤ 1 / 10 ^ 6 := le_trans hu2 (by norm_num)
  have hV0 : 0 < V := lt_of_lt_of_le hc hV
  have hr3 : |r3| ≤ 19 / 100 := by
    refine le_trans (abs_near h3 hP) ?_
    have := mul_le_mul_of_nonneg_right u1 (show (0 : ℝ) ≤ 5951 / 10000 by norm_num)
    norm_num at *; linarith
  have hUa : |U| ≤ 1 / 4 := by rwa [abs_of_nonneg hU0]
  have uc : u * c ≤ 1 / 10 ^ 6 * c := mul_le_mul_of_nonneg_right u1 hc.le
  have uc0 : 0 < u * c := mul_pos hu hc
  -- the product
  have k1 : |z - c * U| ≤ u * c * (511 / 1000) := by
    have a : |cv * U - c * U| ≤ u * (1001 / 1000 * c) * (1 / 4) := by rw [← sub_mul]; exact abs_mul_le h1 hUa
    refine le_trans (abs_tri h2 a) ?_
    have : u * (26 / 100 * c) + u * (1001 / 1000 * c) * (1 / 4) = u * c * (26 / 100 + 1001 / 4000) := by ring
    rw [this]
    exact mul_le_mul_of_nonneg_left (by norm_num) uc0.le
  have k2 : |z * r3 - c * (U * P)| ≤ u * c * (247 / 1000) := by
    have a := abs_mul_le k1 hr3
    have b : |c * U * (r3 - P)| ≤ c * (1 / 4) * (u * (5951 / 10000)) := abs_mul_le (abs_mul_le (le_of_eq (abs_of_pos hc)) hUa) h3
    rw [show z * r3 - c * (U * P) = (z - c * U) * r3 + c * U * (r3 - P) by ring]
    refine le_trans (abs_add_le' a b) ?_
    have : u * c * (511 / 1000) * (19 / 100) + c * (1 / 4) * (u * (5951 / 10000)) = u * c * (511 / 1000 * (19 / 100) + 1 / 4 * (5951 / 10000)) := by ring
    rw [this]
    exact mul_le_mul_of_nonneg_left (by norm_num) uc0.le
  have k3 : |z * r3| ≤ 48 / 1000 * c := by
    have a : |c * (U * P)| ≤ c * (1 / 4 * (1895 / 10000)) := abs_mul_le (le_of_eq (abs_of_pos hc)) (abs_mul_le hUa hP)
    refine le_trans (abs_near k2 a) ?_
    linarith
  have k4 : |z * r3 + cv - V| ≤ u * c * (1448 / 1000) := by
    have p5 : |c + c * (U * P) - V| ≤ u * c * (1 / 5) := by
      refine le_trans h5 ?_
      have := mul_le_mul_of_nonneg_right hu3 (show 0 ≤ 1 / 5 * c by positivity)
      linarith
    rw [show z * r3 + cv - V = (z * r3 - c * (U * P)) + (cv - c) + (c + c * (U * P) - V) by ring]
    refine le_trans (abs_add_le' (abs_add_le' k2 h1) p5) ?_
    linarith
  have k5 := abs_near k4 (le_of_eq (abs_of_pos hV0))
  have k6 := mul_le_mul_of_nonneg_left k5 hu.le
  have k7 : u * (u * c * (1448 / 1000)) ≤ u * c * (1 / 1000) := by
    have := mul_le_mul_of_nonneg_right u1 (show 0 ≤ u * c * (1448 / 1000) by positivity)
    linarith
  have k8 : (1 + 1 / 2 ^ 50) * u * |z * r3| ≤ u * c * (49 / 1000) := by
    have a : (1 + 1 / 2 ^ 50) * u * |z * r3| ≤ (1 + 1 / 2 ^ 50) * u * (48 / 1000 * c) := mul_le_mul_of_nonneg_left k3 (by positivity)
    have b : (1 + 1 / 2 ^ 50) * u * (48 / 1000 * c) = u * c * ((1 + 1 / 2 ^ 50) * (48 / 1000)) := by ring
    rw [b] at a
    exact le_trans a (mul_le_mul_of_nonneg_left (by norm_num) uc0.le)
  have k9 := abs_tri h4 k4
  have k10 : u * c ≤ u * V := mul_le_mul_of_nonneg_left hV hu.le
  refine le_trans k9 ?_
  rw [mul_add] at k6
  have e : u * (1 / 1000 * c) = u * c * (1 / 1000) := by ring
  rw [e]
  have e2 : u * (25 / 10 * V) = u * V * (25 / 10) := by ring
  rw [e2]
  linarith

/-- the value of `acos_kernel` for a magnitude above one half, before the sign is taken into account -/
theorem acos_big (fused : Bool) (md : Mode) {ax : ℕ} (hx : binary64.Finite ax) (h1 : 1 / 2 ≤ binary64.val ax) (h2 : binary64.val ax < 1) :
    let u := CC.multiplyAdd binary64 fused md 0xBFE0000000000000 ax 0x3FE0000000000000
    let cv := binary64.hmul md 0x4000000000000000 (CC.sqrt binary64 md u)
    let r := CC.multiplyAdd binary64 fused md (binary64.hmul md cv u) (CC.asinEval fused md u) cv
    binary64.Finite r ∧ |binary64.val r - arccos (binary64.val ax)| ≤ ru md * (25 / 10 * arccos (binary64.val ax)) := by
  intro u cv r
  have hu := ru_pos md
  have hu2 := ru_le md
  have hu3 := ru_ge md
  have hη := eta_le
  have hη0 := eta_pos
  obtain ⟨fu, vu⟩ := acos_u fused md hx h1 h2
  change binary64.Finite u at fu
  change binary64.val u = _ at vu
  have hlow : 1 / 2 ^ 54 ≤ binary64.val u := by
    rw [vu]
    have hce : -53 ≤ binary64.ce ax := by
      apply binary64.le_ce_of
      have e : ((-53 : ℤ) + (binary64.F : ℤ)) = -1 := by decide
      rw [e, abs_of_nonneg (by linarith)]
      refine le_trans (by norm_num) h1
    have hm := (binary64.mult_ce ax).weaken hce
    have m2 : Mult (-53) (1 : ℝ) := ⟨2 ^ 53, by push_cast; norm_num⟩
    have := (m2.sub hm).ge (by linarith)
    rw [abs_of_pos (by linarith)] at this
    have e : (2 : ℝ) ^ (-53 : ℤ) = 1 / 2 ^ 53 := by norm_num
    rw [e] at this
    have e2 : (1 : ℝ) / 2 ^ 54 = 1 / 2 ^ 53 / 2 := by norm_num
    linarith
  have hU : binary64.val u ≤ 1 / 4 := by rw [vu]; linarith
  have hU0 : 0 < binary64.val u := lt_of_lt_of_le (by positivity) hlow
  rw [arccos_half (by linarith) h2.le, ← vu]
  -- square root
  have Rs := C19_sqrt binary64 (by decide) (by decide) md fu hU0.le
  have hs0 : 1 / 2 ^ 27 ≤ √(binary64.val u) := by
    apply Real.le_sqrt_of_sq_le; refine le_trans (by norm_num) hlow
  have hs1 : √(binary64.val u) ≤ 1 / 2 := by
    rw [show (1 / 2 : ℝ) = √(1 / 4) by rw [show (1 / 4 : ℝ) = (1 / 2) ^ 2 by norm_num, Real.sqrt_sq (by norm_num)]]
    exact Real.sqrt_le_sqrt hU
  obtain ⟨fs, es⟩ := err64 Rs (by rw [abs_of_nonneg (by linarith)]; refine le_trans hs1 (by norm_num))
  generalize hS : √(binary64.val u) = S at *
  have hS0 : 0 < S := lt_of_lt_of_le (by positivity) hs0
  rw [abs_of_pos hS0] at es
  have hη1 : eta ≤ ru md * (1 / 10 ^ 6 * S) := by
    have a : (1 : ℝ) / 2 ^ 200 ≤ 1 / 2 ^ 53 * (1 / 10 ^ 6 * (1 / 2 ^ 27)) := by norm_num
    have b : 1 / 2 ^ 53 * (1 / 10 ^ 6 * (1 / 2 ^ 27)) ≤ ru md * (1 / 10 ^ 6 * S) :=
      mul_le_mul hu3 (mul_le_mul_of_nonneg_left hs0 (by positivity)) (by positivity) hu.le
    linarith
  have hsv : |binary64.val (CC.sqrt binary64 md u)| ≤ 1 := by
    refine le_trans (abs_near es (le_of_eq (abs_of_pos hS0))) ?_
    have a : ru md * S ≤ 1 / 2 ^ 52 * (1 / 2) := mul_le_mul hu2 hs1 hS0.le (by positivity)
    have b : eta ≤ 1 / 10 := le_trans hη (by norm_num)
    norm_num at a
    linarith
  obtain ⟨fc, vc⟩ := double_exact md fs hsv
  change binary64.Finite cv at fc
  change binary64.val cv = _ at vc
  have ec : |binary64.val cv - 2 * S| ≤ ru md * (1001 / 1000 * (2 * S)) := by
    rw [vc, ← mul_sub, abs_mul, show |(2 : ℝ)| = 2 by norm_num]
    have e : ru md * (1001 / 1000 * (2 * S)) = 2 * (ru md * S + ru md * (1 / 1000 * S)) := by ring
    rw [e]
    have : ru md * (1 / 10 ^ 6 * S) ≤ ru md * (1 / 1000 * S) := mul_le_mul_of_nonneg_left (mul_le_mul_of_nonneg_right (by norm_num) hS0.le) hu.le
    linarith
  have hcv : |binary64.val cv| ≤ 1001 / 1000 * (2 * S) := by
    refine le_trans (abs_near ec (le_of_eq (abs_of_pos (by linarith)))) ?_
    have a : ru md * (1001 / 1000 * (2 * S)) ≤ 1 / 10 ^ 6 * (1001 / 1000 * (2 * S)) := mul_le_mul_of_nonneg_right (le_trans hu2 (by norm_num)) (by positivity)
    linarith
  -- the product with u
  have hcu : |binary64.val cv * binary64.val u| ≤ 1001 / 1000 * (2 * S) * (1 / 4) := abs_mul_le hcv (by rw [abs_of_pos hU0]; exact hU)
  obtain ⟨fz, ez⟩ := mul64_err md fc fu (le_trans hcu (by norm_num; linarith))
  have ez2 : |binary64.val (binary64.hmul md cv u) - binary64.val cv * binary64.val u| ≤ ru md * (26 / 100 * (2 * S)) := by
    refine le_trans ez ?_
    have a := mul_le_mul_of_nonneg_left hcu hu.le
    have e : ru md * (1001 / 1000 * (2 * S) * (1 / 4)) + ru md * (1 / 10 ^ 6 * S) = ru md * ((1001 / 4000 + 1 / (2 * 10 ^ 6)) * (2 * S)) := by ring
    have b : ru md * ((1001 / 4000 + 1 / (2 * 10 ^ 6)) * (2 * S)) ≤ ru md * (26 / 100 * (2 * S)) :=
      mul_le_mul_of_nonneg_left (mul_le_mul_of_nonneg_right (by norm_num) (by positivity)) hu.le
    linarith
  have hz : |binary64.val (binary64.hmul md cv u)| ≤ 1 := by
    refine le_trans (abs_near ez2 hcu) ?_
    have a : ru md * (26 / 100 * (2 * S)) ≤ 1 / 10 ^ 6 * (26 / 100 * (2 * S)) := mul_le_mul_of_nonneg_right (le_trans hu2 (by norm_num)) (by positivity)
    linarith
  -- the polynomial
  obtain ⟨fr, er, br⟩ := asinEval_ap fused md (Ap.exact (md := md) fu (BX := 1 / 4) (by rw [abs_of_pos hU0]; exact hU))
  have hr3 : |binary64.val (CC.asinEval fused md u)| ≤ 1 := by
    refine le_trans (abs_near er br) ?_
    have := mul_le_mul_of_nonneg_right (le_trans hu2 (show (1 : ℝ) / 2 ^ 52 ≤ 1 / 10 by norm_num)) (show (0 : ℝ) ≤ 5951 / 10000 by norm_num)
    norm_num at *; linarith
  obtain ⟨fo, eo⟩ := ma64_err fused md fz fr fc (le_trans (abs_mul_le hz hr3) (by norm_num)) (le_trans hcv (by norm_num; linarith))
  refine ⟨fo, ?_⟩
  have h3η : 3 * eta ≤ ru md * (1 / 1000 * (2 * S)) := by
    have : 3 * (ru md * (1 / 10 ^ 6 * S)) = ru md * (3 / (2 * 10 ^ 6) * (2 * S)) := by ring
    have b : ru md * (3 / (2 * 10 ^ 6) * (2 * S)) ≤ ru md * (1 / 1000 * (2 * S)) := mul_le_mul_of_nonneg_left (mul_le_mul_of_nonneg_right (by norm_num) (by positivity)) hu.le
    linarith
  have pol := asinP_arcsin hS0.le hs1
  have hsq : S ^ 2 = binary64.val u := by rw [← hS]; exact Real.sq_sqrt hU0.le
  rw [hsq] at pol
  have pol2 : |2 * S + 2 * S * (binary64.val u * asinP (binary64.val u)) - 2 * arcsin S| ≤ 1 / 5 / 2 ^ 53 * (2 * S) := by
    rw [show 2 * S + 2 * S * (binary64.val u * asinP (binary64.val u)) - 2 * arcsin S = 2 * (S + S * (binary64.val u * asinP (binary64.val u)) - arcsin S) by ring,
      abs_mul, show |(2 : ℝ)| = 2 by norm_num]
    linarith
  have hle : S ≤ arcsin S := by
    have := abs_le_arcsin (x := S) (by rw [abs_of_pos hS0]; linarith)
    rwa [abs_of_pos hS0, abs_of_nonneg (Real.arcsin_nonneg.2 hS0.le)] at this
  exact acos_big_aux hu hu2 hu3 (by linarith) hU0.le hU ec ez2 er (le_trans br (by norm_num)) (le_trans eo (by linarith)) pol2 (by linarith)

end Verif
