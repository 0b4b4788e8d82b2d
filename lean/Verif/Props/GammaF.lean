import Verif.Props.Gamma
import Verif.Lemmas.SinCosF4
import Verif.Lemmas.ExpF2

/-!
# C50 and C68 for `tgamma` on floats
-/

namespace Verif
open Fmt Real

/-- **C50.** Float `tgamma`: zeros, infinities and NaNs. -/
theorem C50_float_special (ce fused : Bool) (md : Mode) :
    CC.gammaFloat ce fused md 0 = some 0x7F800000 ∧ CC.gammaFloat ce fused md 0x80000000 = some 0xFF800000 ∧
      CC.gammaFloat ce fused md 0x7F800000 = some 0x7F800000 ∧
      (∃ r, CC.gammaFloat ce fused md 0xFF800000 = some r ∧ binary32.IsNaN r) ∧
      ∀ x, binary32.IsNaN x → ∃ r, CC.gammaFloat ce fused md x = some r ∧ binary32.IsNaN r := by
  have hq : binary32.IsNaN (FPBits.quietNaN binary32 false 0) := by decide +kernel
  refine ⟨rfl, rfl, rfl, ⟨_, rfl, hq⟩, ?_⟩
  intro x hx
  have h1 : binary32.nanB x = true := (binary32.nanB_iff hx.1).2 hx
  unfold CC.gammaFloat
  rw [if_pos (by rw [FPBits.isNan_eq, h1]; rfl)]
  split_ifs
  · exact ⟨_, rfl, hq⟩
  · exact ⟨_, rfl, hq⟩
  · exact ⟨_, rfl, hx⟩

example : binary32.IsNaN 0x7F800001 := by decide +kernel

theorem gmf_not_special {x : ℕ} (hx : binary32.Finite x) : (FPBits.isNan binary32 x || FPBits.isInf binary32 x) = false := by
  obtain ⟨b1, b2⟩ := binary32.finite_B hx
  rw [FPBits.isNan_eq, FPBits.isInf_eq, b1, b2]; rfl

theorem gmf_not_zero {x : ℕ} (h : binary32.val x ≠ 0) : FPBits.isZero binary32 x = false := by
  rw [FPBits.isZero_eq]
  rw [zeroB, decide_eq_false_iff_not, ← val_eq_zero_iff]
  exact h

/-- what float `tgamma` does with a negative number, given the double result -/
theorem gmf_neg (ce fused : Bool) (md : Mode) {x : ℕ} (hx : binary32.Finite x) (hv : binary32.val x < 0) :
    CC.gammaFloat ce fused md x = match CC.gammaDouble ce fused md (binary64.hcvt binary32 md x) with
      | none => none
      | some result =>
        if !binary64.heq result 0 && FPBits.isZero binary32 (binary32.hcvt binary64 md result) then
          (CC.toInt32 binary64 (CC.floor binary64 md (binary64.hcvt binary32 md x))).map fun k => if k % 2 = 0 then 0 else 0x80000000
        else some (binary32.hcvt binary64 md result) := by
  have hs : FPBits.isNeg binary32 x = true := by rw [FPBits.isNeg_eq _ hx.valid]; exact sgn_of_neg _ hv
  unfold CC.gammaFloat
  rw [gmf_not_special hx, gmf_not_zero hv.ne, hs, if_neg (by simp), if_neg (by simp), if_neg (by simp)]
  simp only [Bool.not_true, Bool.false_and, Bool.true_and, Bool.false_eq_true, if_false]
  cases CC.gammaDouble ce fused md (binary64.hcvt binary32 md x) <;> rfl

/-- **C50.** Float `tgamma` of every negative integer from `-2^31` on is a NaN; below, see `C50_float_negative_integer_wrong`. -/
theorem C50_float_negative_integer_partial (ce fused : Bool) (md : Mode) {x : ℕ} (hx : binary32.Finite x) {n : ℤ} (hn : binary32.val x = n) (h0 : n < 0)
    (h1 : -2 ^ 31 ≤ n) : ∃ r, CC.gammaFloat ce fused md x = some r ∧ binary32.IsNaN r := by
  have hv : binary32.val x < 0 := by rw [hn]; exact_mod_cast h0
  obtain ⟨f, e⟩ := cvt_up md hx
  rw [hn] at e
  rw [gmf_neg ce fused md hx hv]
  obtain ⟨g, w⟩ := gm_floor md f e
  rw [gm_negInt ce fused md f e h0, toInt32_spec g w h1 (by omega)]
  have c1 : ∀ m : Mode, FPBits.isZero binary32 (binary32.hcvt binary64 m (FPBits.quietNaN binary64 false 0)) = false := by intro m; cases m <;> decide +kernel
  have c2 : ∀ m : Mode, binary32.IsNaN (binary32.hcvt binary64 m (FPBits.quietNaN binary64 false 0)) := by intro m; cases m <;> decide +kernel
  simp only [Option.map_some, c1, Bool.and_false, Bool.false_eq_true, if_false]
  exact ⟨_, rfl, c2 md⟩

example : binary32.Finite 0xC0400000 ∧ (CC.gammaFloat true false .nearest 0xC0400000).isSome = true ∧
    (CC.gammaFloat true false .nearest 0xCF000000).isSome = true := by decide +kernel

/-- **C50, violated.** Float `tgamma` of every finite integer below `-2^31` is undefined. -/
theorem C50_float_negative_integer_wrong (ce fused : Bool) (md : Mode) {x : ℕ} (hx : binary32.Finite x) {n : ℤ} (hn : binary32.val x = n) (h1 : n < -2 ^ 31) :
    CC.gammaFloat ce fused md x = none := by
  have hv : binary32.val x < 0 := by rw [hn]; exact_mod_cast (by omega : n < 0)
  obtain ⟨f, e⟩ := cvt_up md hx
  rw [hn] at e
  rw [gmf_neg ce fused md hx hv, C50_negative_integer_wrong ce fused md f e h1]

example : binary32.Finite 0xCF000001 ∧ CC.gammaFloat true false .nearest 0xCF000001 = none := by decide +kernel

theorem val_348 : 34 < binary32.val 0x420B3333 := by
  rw [lit32 false 0x8B3333 18 (by decide +kernel) (by decide +kernel) (by decide +kernel) (by decide +kernel)]; norm_num [sg]

theorem gmf_aux {u t G R r : ℝ} (h0 : 0 < u) (h3 : 1 / 2 ^ 24 ≤ u) (h4 : u ≤ 1 / 2 ^ 23) (h5 : t ≤ 1 / 2 ^ 100) (hG : 1 ≤ G) (hE : |R - G| ≤ 1 / 2 ^ 48 * G)
    (hR : |R| ≤ G + 1 / 2 ^ 48 * G) (er : |r - R| ≤ u * |R| + t) : |r - G| ≤ 101 / 100 * u * G := by
  have h6 := mul_le_mul_of_nonneg_left hR h0.le
  have h7 := abs_tri er hE
  have h8 : u * G ≥ 1 / 2 ^ 24 * G := mul_le_mul_of_nonneg_right h3 (by linarith)
  have h9 : u * (1 / 2 ^ 48 * G) ≤ 1 / 2 ^ 23 * (1 / 2 ^ 48 * G) := mul_le_mul_of_nonneg_right h4 (by positivity)
  have c1 : (1 : ℝ) / 2 ^ 100 ≤ 1 / 2 ^ 40 := by norm_num
  rw [mul_add] at h6
  have h10 : 101 / 100 * u * G = u * G + 1 / 100 * (u * G) := by ring
  rw [h10]
  have h11 : |r - G| ≤ u * G + 1 / 2 ^ 23 * (1 / 2 ^ 48 * G) + 1 / 2 ^ 40 + 1 / 2 ^ 48 * G := by linarith
  refine le_trans h11 ?_
  clear h11 h10 h9 h7 h6 hE hR er h5
  generalize u * G = z at *
  norm_num at h8 ⊢
  linarith

/-- **C68.** Float `tgamma` at every integer `k` from 1 to 34 is finite and within a relative error of `1.01 ru` of `(k - 1)!`, where `ru` is `2^-24` in
round-to-nearest and `2^-23` otherwise. What is missing: `k = 35`, see `C68_tgammaf_wrong`. -/
theorem C68_tgammaf_integer_partial (ce fused : Bool) (md : Mode) {x : ℕ} (hx : binary32.Finite x) {k : ℕ} (hk : binary32.val x = k) (h1 : 1 ≤ k) (h2 : k ≤ 34) :
    ∃ r, CC.gammaFloat ce fused md x = some r ∧ binary32.Finite r ∧
      |binary32.val r - Real.Gamma k| ≤ (1.01 * if md = .nearest then 1 / 2 ^ 24 else 1 / 2 ^ 23) * Real.Gamma k := by
  have hr : (if md = .nearest then 1 / 2 ^ 24 else 1 / 2 ^ 23) = ruf md := rfl
  rw [hr]
  have h1' : (1 : ℝ) ≤ k := by exact_mod_cast h1
  have h2' : (k : ℝ) ≤ 34 := by exact_mod_cast h2
  have hv : 0 < binary32.val x := by rw [hk]; linarith
  have hs : FPBits.isNeg binary32 x = false := by rw [FPBits.isNeg_eq _ hx.valid]; exact sgn_of_pos _ hv
  obtain ⟨f, e⟩ := cvt_up md hx
  rw [hk] at e
  obtain ⟨R, eR, fR, bR⟩ := C68_tgamma_integer_partial ce fused md f e h1 (by omega)
  have hm : ¬ ((!false && binary32.hge x 0x420B3333) = true) := by
    unfold hge
    rw [Bool.not_false, Bool.true_and, CC.hle_finite binary32 (by decide +kernel) hx, hk]
    have := val_348
    linarith
  have hG : Real.Gamma k = ((k - 1).factorial : ℕ) := by
    have := Real.Gamma_nat_eq_factorial (k - 1)
    rw [← this]; congr 1
    rw [Nat.cast_sub h1]; simp
  have hG1 : (1 : ℝ) ≤ Real.Gamma k := by rw [hG]; exact_mod_cast Nat.factorial_pos _
  have hG2 : Real.Gamma k ≤ 2 ^ 124 := by
    rw [hG]
    have : (k - 1).factorial ≤ (33).factorial := Nat.factorial_le (by omega)
    have c : (33).factorial ≤ 2 ^ 124 := by decide +kernel
    exact_mod_cast le_trans this c
  generalize Real.Gamma k = G at *
  have hE : |binary64.val R - G| ≤ 1 / 2 ^ 48 * G := by
    refine le_trans bR (mul_le_mul_of_nonneg_right ?_ (by linarith))
    have a : ((k - 23 : ℕ) : ℝ) ≤ 11 := by exact_mod_cast (by omega : k - 23 ≤ 11)
    have b : (1.01 * if md = .nearest then (1 : ℝ) / 2 ^ 53 else 1 / 2 ^ 52) ≤ 1.01 * (1 / 2 ^ 52) := by split_ifs <;> norm_num
    refine le_trans (mul_le_mul a b ?_ (by norm_num)) (by norm_num)
    split_ifs <;> norm_num
  have hRa := abs_near hE (le_of_eq (abs_of_pos (by linarith : (0 : ℝ) < G)))
  have hmf : |binary64.val R| ≤ binary32.maxFin := by
    have h := binary32.maxFin_add
    have e1 : ((binary32.bias : ℤ) + 1) = 128 := by decide
    have e2 : ((binary32.bias : ℤ) - (binary32.F : ℤ)) = 104 := by decide
    rw [e1, e2] at h
    have c : (2 : ℝ) ^ (128 : ℤ) - (2 : ℝ) ^ (104 : ℤ) ≥ 2 ^ 126 := by norm_num
    have : (1 : ℝ) / 2 ^ 48 * G + G ≤ 2 ^ 126 := by
      have := mul_le_mul_of_nonneg_left hG2 (show (0 : ℝ) ≤ 1 / 2 ^ 48 by positivity)
      norm_num at this hG2 ⊢
      linarith
    linarith
  obtain ⟨fr, er⟩ := err32m (CC.hcvt_spec binary32 binary64 md fR) hmf
  have hi : FPBits.isInf binary64 R = false := by rw [FPBits.isInf_eq]; exact (binary64.finite_B fR).2
  refine ⟨binary32.hcvt binary64 md R, ?_, fr, ?_⟩
  · unfold CC.gammaFloat
    rw [gmf_not_special hx, gmf_not_zero hv.ne', hs, if_neg (by simp), if_neg (by simp), if_neg hm]
    simp only [eR, hi, Bool.and_false, Bool.false_and, Bool.false_eq_true, if_false]
  · have h0 := ruf_pos md
    have h3 := ruf_ge md
    have h4 := ruf_le md
    have h5 : hf md * etaf ≤ 1 / 2 ^ 100 := by
      have a : hf md ≤ 1 := by unfold hf; split_ifs <;> norm_num
      have := etaf_le
      have := etaf_pos
      nlinarith
    have c : (1.01 : ℝ) = 101 / 100 := by norm_num
    rw [c]
    exact gmf_aux h0 h3 h4 h5 hG1 hE hRa er

-- tgamma(6.0f) = 120
example : binary32.Finite 0x40C00000 ∧ CC.gammaFloat true false .up 0x40C00000 = some 0x42F00000 := by decide +kernel

/-- **C68, violated.** Float `tgamma(35)` is `34! < FLT_MAX` but the code returns infinity: its overflow threshold 34.8 is too small. -/
theorem C68_tgammaf_wrong : binary32.val 0x420C0000 = 35 ∧ (∀ ce fused md, CC.gammaFloat ce fused md 0x420C0000 = some 0x7F800000) ∧ Real.Gamma 35 < binary32.maxFin := by
  refine ⟨?_, fun _ _ _ => rfl, ?_⟩
  · rw [lit32 false 0x8C0000 18 (by decide +kernel) (by decide +kernel) (by decide +kernel) (by decide +kernel)]; norm_num [sg]
  · have hG : Real.Gamma 35 = ((34).factorial : ℕ) := by
      rw [← Real.Gamma_nat_eq_factorial]; norm_num
    have h := binary32.maxFin_add
    have e1 : ((binary32.bias : ℤ) + 1) = 128 := by decide
    have e2 : ((binary32.bias : ℤ) - (binary32.F : ℤ)) = 104 := by decide
    rw [e1, e2] at h
    have c : (34).factorial + 2 ^ 104 < 2 ^ 128 := by decide +kernel
    have c' : ((34).factorial : ℝ) + 2 ^ 104 < 2 ^ 128 := by exact_mod_cast c
    rw [hG]
    generalize ((34).factorial : ℝ) = B at *
    have c1 : (2 : ℝ) ^ (128 : ℤ) = 2 ^ 128 := by norm_num
    have c2 : (2 : ℝ) ^ (104 : ℤ) = 2 ^ 104 := by norm_num
    linarith

end Verif
