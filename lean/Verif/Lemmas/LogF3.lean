import Verif.Lemmas.LogF2
import Verif.Lemmas.LogE4

/-!
# The float base-2 logarithm
-/

namespace Verif
open Fmt Real

/-- double rounding errors of the float `log2`, away from 1 -/
theorem log2f_q (md : Mode) {l kd r : ℕ} (fl : binary64.Finite l) (fk : binary64.Finite kd) (fr : binary64.Finite r) {a : ℝ} (ha0 : 0 ≤ a) (ha : a ≤ 200)
    (bl : |binary64.val l| ≤ 1) (bk : |binary64.val kd| ≤ a) (br : |binary64.val r| ≤ 1 / 31) :
    let mul := binary64.hmul md
    let add := binary64.hadd md
    let r2 := mul r r
    Ap md (add (mul (add (mul CC.log2Af0 r2) (add (mul CC.log2Af1 r) CC.log2Af2)) r2) (add (mul CC.log2Af3 r) (add l kd)))
      (binary64.val l + binary64.val kd + binary64.val r * log2PF (binary64.val r)) (2 + a) (8 + 4 * a) := by
  intro mul add r2
  have R : Ap md r (binary64.val r) (1 / 31) 0 := Ap.exact fr br
  have A0 : Ap md CC.log2Af0 _ (2 / 5) 0 := Ap.ofVal val_log2Af0.1 val_log2Af0.2 (by rw [abs_le]; constructor <;> norm_num)
  have A1 : Ap md CC.log2Af1 _ (1 / 2) 0 := Ap.ofVal val_log2Af1.1 val_log2Af1.2 (by rw [abs_le]; constructor <;> norm_num)
  have A2 : Ap md CC.log2Af2 _ (3 / 4) 0 := Ap.ofVal val_log2Af2.1 val_log2Af2.2 (by rw [abs_le]; constructor <;> norm_num)
  have A3 : Ap md CC.log2Af3 _ (3 / 2) 0 := Ap.ofVal val_log2Af3.1 val_log2Af3.2 (by rw [abs_le]; constructor <;> norm_num)
  have Lc : Ap md l (binary64.val l) 1 0 := Ap.exact fl bl
  have K : Ap md kd (binary64.val kd) a 0 := Ap.exact fk bk
  have R2 : Ap md r2 _ (1 / 900) (1 / 800) := R.mul R (by norm_num) (by norm_num) (by norm_num)
  have T1 := A1.mul R (B := 1 / 60) (e := 1 / 50) (by norm_num) (by norm_num) (by norm_num)
  have T2 := T1.add A2 (S := 8 / 10) (B := 8 / 10) (e := 1) ((abs_add_le' T1.bd A2.bd).trans (by norm_num)) le_rfl (by norm_num) (by norm_num)
  have T3 := A0.mul R2 (B := 1 / 2000) (e := 1 / 700) (by norm_num) (by norm_num) (by norm_num)
  have T4 := T3.add T2 (S := 9 / 10) (B := 9 / 10) (e := 2) ((abs_add_le' T3.bd T2.bd).trans (by norm_num)) le_rfl (by norm_num) (by norm_num)
  have T5 := T4.mul R2 (B := 1 / 1000) (e := 1 / 100) (by norm_num) (by norm_num) (by norm_num)
  have T6 := A3.mul R (B := 1 / 20) (e := 1 / 19) (by norm_num) (by norm_num) (by norm_num)
  have T7 := Lc.add K (S := 1 + a) (B := 1 + a) (e := 11 / 10 + 11 / 10 * a) (abs_add_le' Lc.bd K.bd) le_rfl (by norm_num; linarith) (by norm_num; linarith)
  have T8 := T6.add T7 (S := 11 / 10 + a) (B := 11 / 10 + a) (e := 3 + 5 / 2 * a) ((abs_add_le' T6.bd T7.bd).trans (by linarith)) le_rfl (by norm_num; linarith) (by norm_num; linarith)
  have T9 := T5.add T8 (S := 12 / 10 + a) (B := 2 + a) (e := 8 + 4 * a) ((abs_add_le' T5.bd T8.bd).trans (by linarith)) (by linarith) (by norm_num; linarith) (by norm_num; linarith)
  refine T9.congr ?_
  unfold log2PF
  ring

/-- double rounding errors of the float `log2` near 1, relative to `r` -/
theorem log2f_q_near (md : Mode) {y0 r : ℕ} (f0 : binary64.Finite y0) (v0 : binary64.val y0 = 0) (fr : binary64.Finite r) {a : ℝ} (ha0 : 1 / 2 ^ 24 ≤ a) (ha : a ≤ 1 / 40)
    (br : |binary64.val r| ≤ a) :
    let mul := binary64.hmul md
    let add := binary64.hadd md
    let r2 := mul r r
    Ap md (add (mul (add (mul CC.log2Af0 r2) (add (mul CC.log2Af1 r) CC.log2Af2)) r2) (add (mul CC.log2Af3 r) y0)) (binary64.val r * log2PF (binary64.val r)) (2 * a) (6 * a) := by
  intro mul add r2
  norm_num at ha0
  have br' : |binary64.val r| ≤ 1 / 40 := br.trans ha
  have R : Ap md r (binary64.val r) (1 / 40) 0 := Ap.exact fr br'
  have Ra : Ap md r (binary64.val r) a 0 := Ap.exact fr br
  have A0 : Ap md CC.log2Af0 _ (2 / 5) 0 := Ap.ofVal val_log2Af0.1 val_log2Af0.2 (by rw [abs_le]; constructor <;> norm_num)
  have A1 : Ap md CC.log2Af1 _ (1 / 2) 0 := Ap.ofVal val_log2Af1.1 val_log2Af1.2 (by rw [abs_le]; constructor <;> norm_num)
  have A2 : Ap md CC.log2Af2 _ (3 / 4) 0 := Ap.ofVal val_log2Af2.1 val_log2Af2.2 (by rw [abs_le]; constructor <;> norm_num)
  have A3 : Ap md CC.log2Af3 _ (3 / 2) 0 := Ap.ofVal val_log2Af3.1 val_log2Af3.2 (by rw [abs_le]; constructor <;> norm_num)
  have Z : Ap md y0 0 0 0 := Ap.ofVal f0 v0 (by simp)
  have R2 : Ap md r2 _ (1 / 900) (1 / 800) := R.mul R (by norm_num) (by norm_num) (by norm_num)
  have R2a : Ap md r2 _ (1 / 40 * a) (1 / 20 * a) := R.mul Ra (by linarith) (by norm_num; linarith) (by norm_num; linarith)
  have T1 := A1.mul R (B := 1 / 60) (e := 1 / 50) (by norm_num) (by norm_num) (by norm_num)
  have T2 := T1.add A2 (S := 8 / 10) (B := 8 / 10) (e := 1) ((abs_add_le' T1.bd A2.bd).trans (by norm_num)) le_rfl (by norm_num) (by norm_num)
  have T3 := A0.mul R2 (B := 1 / 2000) (e := 1 / 700) (by norm_num) (by norm_num) (by norm_num)
  have T4 := T3.add T2 (S := 9 / 10) (B := 9 / 10) (e := 2) ((abs_add_le' T3.bd T2.bd).trans (by norm_num)) le_rfl (by norm_num) (by norm_num)
  have T5 := T4.mul R2a (B := 1 / 20 * a) (e := 1 / 5 * a) (by linarith) (by norm_num; linarith) (by norm_num; linarith)
  have T6 := A3.mul Ra (B := 3 / 2 * a) (e := 16 / 10 * a) (by linarith) (by norm_num; linarith) (by norm_num; linarith)
  have T8 := T6.add Z (S := 3 / 2 * a) (B := 3 / 2 * a) (e := 32 / 10 * a) ((abs_add_le' T6.bd Z.bd).trans (by linarith)) le_rfl (by norm_num; linarith) (by norm_num; linarith)
  have T9 := T5.add T8 (S := 16 / 10 * a) (B := 2 * a) (e := 6 * a) ((abs_add_le' T5.bd T8.bd).trans (by linarith)) (by linarith) (by norm_num; linarith) (by norm_num; linarith)
  refine T9.congr ?_
  unfold log2PF
  ring

theorem log2PF_err {r : ℝ} (h1 : -(1 / 35) ≤ r) (h2 : r ≤ 1 / 32) :
    |r * (ln2N / 2 ^ 160 * log2PF r) - log (1 + r)| ≤ 2066 / 2 ^ 40 ∧ (r ≤ 1 / 40 → |r * (ln2N / 2 ^ 160 * log2PF r) - log (1 + r)| ≤ 775 / 2 ^ 40) := by
  have hb : |r| ≤ 1 / 32 := by rw [abs_le]; constructor <;> linarith
  have t := logTf_near hb
  have t' : |r * logTf r - log (1 + r)| ≤ 2 / 2 ^ 40 := by
    refine t.trans ?_
    have := mul_le_mul_of_nonneg_right hb (show (0 : ℝ) ≤ 11 / 10 / 32 ^ 7 by positivity)
    refine this.trans (by norm_num)
  have e : r * (ln2N / 2 ^ 160 * log2PF r) - log (1 + r) = r * (ln2N / 2 ^ 160 * log2PF r - logTf r) + (r * logTf r - log (1 + r)) := by ring
  rw [e]
  constructor
  · exact (abs_add_le' (log2PFc_near (by linarith) h2) t').trans (by norm_num)
  · intro h3
    exact (abs_add_le' (log2PFb_near h1 h3) t').trans (by norm_num)

/-- a relative error of a natural logarithm is one of the base-2 logarithm -/
theorem rel_ln2 {v l δ : ℝ} (h : |v * log 2 - l| ≤ δ * |l|) : |v - l / log 2| ≤ δ * |l / log 2| := by
  have h0 : 0 < log 2 := by have := log2_lo.1; linarith
  have e : v - l / log 2 = (v * log 2 - l) / log 2 := by field_simp
  rw [e, abs_div, abs_div, abs_of_pos h0, ← mul_div_assoc]
  exact div_le_div_of_nonneg_right h h0.le

/-- the last rounding -/
theorem log2f_final {md : Mode} {y : ℕ} {L : ℝ} (fy : binary64.Finite y) (hL1 : 1 / 2 ^ 30 ≤ |L|) (hL2 : |L| ≤ 130) (h : |binary64.val y * log 2 - L| ≤ 615 / 1000 / 2 ^ 24 * |L|) :
    binary32.Finite (binary32.hcvt binary64 md y) ∧ |binary32.val (binary32.hcvt binary64 md y) - L / log 2| ≤ ruf md * (13 / 8 * |L / log 2|) := by
  obtain ⟨l1, l2⟩ := log2_lo
  have h0 : 0 < log 2 := by linarith
  have e : |L / log 2| = |L| / log 2 := by rw [abs_div, abs_of_pos h0]
  refine logf_final fy ?_ ?_ (rel_ln2 h)
  · rw [e, le_div_iff₀ h0]; refine le_trans ?_ hL1; norm_num at l2 ⊢; linarith
  · rw [e, div_le_iff₀ h0]; linarith

/-- the case of arguments near 1 -/
theorem log2f_near (md : Mode) {z n kd : ℕ} (fz : binary64.Finite z) (hz : binary64.val z = n / 2 ^ 24) (hn : n ≠ 2 ^ 24) (hn1 : n ≤ 17170432) (hn2 : 16449536 ≤ n)
    (fk : binary64.Finite kd) (vk : binary64.val kd = 0) :
    let mul := binary64.hmul md
    let add := binary64.hadd md
    let r := binary64.hsub md (mul z 0x3FF0000000000000) 0x3FF0000000000000
    let r2 := mul r r
    let y := binary32.hcvt binary64 md (add (mul (add (mul CC.log2Af0 r2) (add (mul CC.log2Af1 r) CC.log2Af2)) r2) (add (mul CC.log2Af3 r) (add 0 kd)))
    binary32.Finite y ∧ |binary32.val y - log (binary64.val z) / log 2| ≤ ruf md * (13 / 8 * |log (binary64.val z) / log 2|) := by
  intro mul add r r2 y
  have g1 : (n : ℝ) ≤ 17170432 := by exact_mod_cast hn1
  have g2 : (16449536 : ℝ) ≤ n := by exact_mod_cast hn2
  have hzb : |binary64.val z| ≤ 2 := by
    rw [hz, abs_of_nonneg (by positivity), div_le_iff₀ (by positivity)]; norm_num; linarith
  have mz : Mult (-24) (binary64.val z) := ⟨n, by rw [hz]; push_cast; norm_num; ring⟩
  obtain ⟨f1, v1⟩ := ex64 (-24) (hmul_spec binary64 md fz fval_one64.1) (by rw [fval_one64.2, mul_one]; exact mz) (by norm_num)
    (by rw [fval_one64.2, mul_one]; exact hzb.trans (by norm_num)) (by rw [fval_one64.2, mul_one]; exact hzb.trans (by norm_num))
  rw [fval_one64.2, mul_one] at v1
  have e1 : binary64.val z - 1 = ((n : ℤ) - 2 ^ 24 : ℤ) / 2 ^ 24 := by rw [hz, Int.cast_sub, sub_div]; norm_num
  have b1 : |binary64.val z - 1| ≤ 1 / 40 := by
    rw [hz, abs_le]; constructor
    · rw [le_sub_iff_add_le, le_div_iff₀ (by positivity)]; norm_num; linarith
    · rw [sub_le_iff_le_add, div_le_iff₀ (by positivity)]; norm_num; linarith
  obtain ⟨fr, vr⟩ := ex64 (-24) (hsub_spec binary64 md f1 fval_one64.1) (by rw [v1, fval_one64.2]; exact ⟨(n : ℤ) - 2 ^ 24, by rw [e1]; push_cast; norm_num; ring⟩) (by norm_num)
    (by rw [v1, fval_one64.2]; exact b1.trans (by norm_num)) (by rw [v1, fval_one64.2]; exact b1.trans (by norm_num))
  rw [v1, fval_one64.2] at vr
  change binary64.Finite r at fr
  change binary64.val r = _ at vr
  have hr0 : 1 / 2 ^ 24 ≤ |binary64.val r| := by
    rw [vr, e1, abs_div, abs_of_pos (show (0 : ℝ) < 2 ^ 24 by positivity)]
    refine div_le_div_of_nonneg_right ?_ (by positivity)
    rw [← Int.cast_abs]
    exact_mod_cast Int.one_le_abs (show (n : ℤ) - 2 ^ 24 ≠ 0 by omega)
  have br : |binary64.val r| ≤ 1 / 40 := by rw [vr]; exact b1
  have f00 : binary64.Finite 0 := by decide +kernel
  have v00 : binary64.val 0 = 0 := (binary64.val_eq_zero_iff _).2 (by decide +kernel)
  obtain ⟨f3, v3⟩ := ex64 0 (hadd_spec binary64 md f00 fk) (by rw [v00, vk, zero_add]; exact ⟨0, by simp⟩) (by norm_num) (by rw [v00, vk]; norm_num) (by rw [v00, vk]; norm_num)
  rw [v00, vk, zero_add] at v3
  have Q := log2f_q_near md f3 v3 fr hr0 br le_rfl
  have fy := Q.fin
  have ey := Q.err
  change binary64.Finite (add (mul (add (mul CC.log2Af0 r2) (add (mul CC.log2Af1 r) CC.log2Af2)) r2) (add (mul CC.log2Af3 r) (add 0 kd))) at fy
  change |binary64.val (add (mul (add (mul CC.log2Af0 r2) (add (mul CC.log2Af1 r) CC.log2Af2)) r2) (add (mul CC.log2Af3 r) (add 0 kd))) - _| ≤ _ at ey
  have hlz : log (binary64.val z) = log (1 + binary64.val r) := by rw [vr]; congr 1; ring
  rw [hlz]
  generalize binary64.val r = R at *
  have hL : |R| * (40 / 41) ≤ |log (1 + R)| := logf_near_ge br
  have hL2 : |log (1 + R)| ≤ 1 := by
    have h1 := Real.log_le_sub_one_of_pos (x := 1 + R) (by have := (abs_le.1 br).1; linarith)
    have h2 := Real.one_sub_inv_le_log_of_pos (x := 1 + R) (by have := (abs_le.1 br).1; linarith)
    have h3 : (1 + R)⁻¹ ≤ 2 := by rw [inv_le_comm₀ (by have := (abs_le.1 br).1; linarith) (by norm_num)]; have := (abs_le.1 br).1; linarith
    rw [abs_le]; constructor <;> linarith [(abs_le.1 br).2]
  have ht := logTf_near (br.trans (by norm_num : (1 / 40 : ℝ) ≤ 1 / 32))
  have hp := abs_mul_le (le_refl |R|) (log2PFa_near (abs_le.1 br).1 (abs_le.1 br).2)
  have hln := ln2N_near
  have hlo := log2_lo
  refine log2f_final fy (by norm_num at hr0 hL ⊢; linarith) (hL2.trans (by norm_num)) ?_
  have bQ := Q.bd
  have n1 : |(R * log2PF R) * (log 2 - ln2N / 2 ^ 160)| ≤ (2 * |R|) * (1 / 2 ^ 150) := abs_mul_le bQ hln
  have n0 : |(binary64.val (add (mul (add (mul CC.log2Af0 r2) (add (mul CC.log2Af1 r) CC.log2Af2)) r2) (add (mul CC.log2Af3 r) (add 0 kd))) - R * log2PF R) * log 2| ≤ (1 / 2 ^ 52 * (6 * |R|)) * (6932 / 10000) := by
    refine abs_mul_le (ey.trans (mul_le_mul_of_nonneg_right (ru_le md) (by positivity))) ?_
    rw [abs_of_pos (by linarith)]; exact hlo.2
  have e : binary64.val (add (mul (add (mul CC.log2Af0 r2) (add (mul CC.log2Af1 r) CC.log2Af2)) r2) (add (mul CC.log2Af3 r) (add 0 kd))) * log 2 - log (1 + R) =
      (binary64.val (add (mul (add (mul CC.log2Af0 r2) (add (mul CC.log2Af1 r) CC.log2Af2)) r2) (add (mul CC.log2Af3 r) (add 0 kd))) - R * log2PF R) * log 2 +
      (R * log2PF R) * (log 2 - ln2N / 2 ^ 160) + R * (ln2N / 2 ^ 160 * log2PF R - logTf R) + (R * logTf R - log (1 + R)) := by ring
  rw [e]
  refine (abs_add_le' (abs_add_le' (abs_add_le' n0 n1) hp) ht).trans ?_
  clear e n0 n1 hp ht
  norm_num at hL ⊢
  linarith

/-- on positive finite arguments other than 1, `log2_float_impl` normalizes as `log_float_impl` does -/
theorem log2FloatImpl_norm (md : Mode) {x : ℕ} (hx : binary32.Finite x) (h : 0 < binary32.val x) (h1 : x ≠ 0x3f800000) :
    CC.log2FloatImpl md x = CC.log2Mainf md (CC.logNormf md x) := by
  obtain ⟨p1, p2⟩ := pos_pat32 hx h
  unfold CC.log2FloatImpl CC.logNormf
  rw [if_neg h1]
  by_cases hn : (x + 2 ^ 32 - 0x00800000) % 2 ^ 32 ≥ 0x7f800000 - 0x00800000
  · rw [if_pos hn, if_pos hn, if_neg]
    rintro (hc | hc)
    · apply hc
      have e : (0x80000000 : ℕ) = 2 ^ 31 * 1 + 0 := by norm_num
      have e2 : x = 2 ^ 31 * 0 + x := by ring
      rw [e, e2, CC.and_split 31 _ _ _ _ (by omega) (by norm_num)]
      simp
    · omega
  · rw [if_neg hn, if_neg hn]

theorem log2FloatImpl_err (md : Mode) {x : ℕ} (hx : binary32.Finite x) (h : 0 < binary32.val x) :
    binary32.Finite (CC.log2FloatImpl md x) ∧ |binary32.val (CC.log2FloatImpl md x) - logb 2 (binary32.val x)| ≤ ruf md * (13 / 8 * |logb 2 (binary32.val x)|) := by
  rw [show logb 2 (binary32.val x) = log (binary32.val x) / log 2 from rfl]
  by_cases hx1 : x = 0x3f800000
  · subst hx1
    have e1 : binary32.val 0x3f800000 = 1 := by
      rw [zint_val (by norm_num) (by norm_num), show zint 0x3f800000 = 2 ^ 24 from by decide +kernel]; norm_num
    have e0 : binary32.val 0 = 0 := (binary32.val_eq_zero_iff _).2 (by decide +kernel)
    rw [e1, log_one, zero_div, show CC.log2FloatImpl md 0x3f800000 = 0 from by unfold CC.log2FloatImpl; simp, e0]
    exact ⟨by decide +kernel, by simp⟩
  obtain ⟨k, d, hd, hk1, hk2, hr, hzf, hxz, hk0⟩ := red32 md hx h
  dsimp only at hr
  obtain ⟨hr1, hr3, hr4⟩ := hr
  rw [log2FloatImpl_norm md hx h hx1]
  unfold CC.log2Mainf
  dsimp only
  rw [hr1, hr3, hr4]
  clear hr1 hr3 hr4
  have hi16 : d / 2 ^ 19 < 16 := by omega
  have tab := logTabOkf_spec (log2Tabf_ok (d / 2 ^ 19) hi16) (by norm_num)
  obtain ⟨fi, fl, hi1, hi2, hlc, elc, hzr, hi10⟩ := tab
  have hzv := zint_val (P := 0x3f330000 + d) (by omega) (by omega)
  have hzb := hzr (binary32.val (0x3f330000 + d))
    (by rw [hzv]
        have : (zint (0x3f330000 + d / 2 ^ 19 * 2 ^ 19) : ℝ) ≤ zint (0x3f330000 + d) := by exact_mod_cast zint_mono (by omega) (by omega) (by omega)
        exact div_le_div_of_nonneg_right this (by positivity))
    (by rw [hzv]
        have : (zint (0x3f330000 + d) : ℝ) ≤ zint (0x3f330000 + (d / 2 ^ 19 + 1) * 2 ^ 19) := by exact_mod_cast zint_mono (by omega) (by omega) (by omega)
        exact div_le_div_of_nonneg_right this (by positivity))
  obtain ⟨hR1, hR2, hR8⟩ := hzb
  obtain ⟨fz, vz⟩ := cvt_up md hzf
  have hz0 : 0 < binary32.val (0x3f330000 + d) := by
    rw [hxz] at h
    exact pos_of_mul_pos_left h (by positivity)
  have hz2 : binary32.val (0x3f330000 + d) ≤ 2 := by
    rw [hzv, div_le_iff₀ (by positivity)]
    have : zint (0x3f330000 + d) ≤ zint (0x3f330000 + 2 ^ 23) := zint_mono (by omega) (by omega) (by norm_num)
    rw [show zint (0x3f330000 + 2 ^ 23) = 23461888 from by decide +kernel] at this
    have : (zint (0x3f330000 + d) : ℝ) ≤ 23461888 := by exact_mod_cast this
    exact this.trans (by norm_num)
  have hlx : log (binary32.val x) = k * log 2 + log (binary32.val (0x3f330000 + d)) := by
    rw [hxz, log_mul hz0.ne' (by positivity), log_zpow]; ring
  obtain ⟨fk, vk⟩ := ofInt_ex64 md (z := k) (by rw [abs_le]; constructor <;> omega)
  have hkr : |(k : ℝ)| ≤ 160 := by rw [abs_le]; constructor <;> [(have : (-160 : ℤ) ≤ k := by omega); skip] <;> exact_mod_cast by omega
  by_cases h9 : d / 2 ^ 19 = 9 ∧ k = 0
  · -- near 1
    obtain ⟨h9, rfl⟩ := h9
    have hxd := hk0 rfl
    rw [h9, show CC.log2Invcf.getD 9 0 = 0x3FF0000000000000 from by decide +kernel, show CC.log2Logcf.getD 9 0 = 0 from by decide +kernel]
    have hne : zint (0x3f330000 + d) ≠ 2 ^ 24 ∧ zint (0x3f330000 + d) ≤ 17170432 ∧ 16449536 ≤ zint (0x3f330000 + d) := by
      unfold zint
      have : (0x3f330000 + d) / 2 ^ 23 = 126 ∨ (0x3f330000 + d) / 2 ^ 23 = 127 := by omega
      rcases this with h | h <;> rw [h] <;> norm_num <;> omega
    simp only [Int.cast_zero, zero_mul, zero_add] at hlx
    rw [hlx]
    rw [← vz] at hzv ⊢
    clear hR1 hR2 hR8 hzr elc hlx hxz hz0 hz2 hk0 hi10
    generalize binary64.hcvt binary32 md (0x3f330000 + d) = z at *
    exact log2f_near md fz hzv hne.1 hne.2.1 hne.2.2 fk (by simpa using vk)
  · -- the general case
    obtain ⟨L1, L2, L3, L4⟩ := logf_L hd k hzv (by linarith) hi10 hR8 h9
    rw [← hlx] at L1 L2 L3 L4
    rw [← vz] at hR1 hR2 hR8 hz0 hz2 hlx L3
    generalize binary64.hcvt binary32 md (0x3f330000 + d) = z at *
    generalize CC.log2Invcf.getD (d / 2 ^ 19) 0 = ic at *
    generalize CC.log2Logcf.getD (d / 2 ^ 19) 0 = lc at *
    obtain ⟨fr, er, br, br'⟩ := logf_r md fz fi (by rw [abs_of_pos hz0]; exact hz2) (by rw [abs_of_pos (by linarith)]; exact hi2) hR1 hR2
    generalize binary64.hsub md (binary64.hmul md z ic) 0x3FF0000000000000 = r at *
    generalize binary64.ofInt md k = kd at *
    have Q := log2f_q md fl fk fr (abs_nonneg (k : ℝ)) (hkr.trans (by norm_num)) hlc (by rw [vk]) (br.trans (by norm_num))
    have fy := Q.fin
    have ey := Q.err
    generalize binary64.hadd md (binary64.hmul md _ _) (binary64.hadd md (binary64.hmul md _ _) (binary64.hadd md _ _)) = y at *
    have P := log2PF_err br' (abs_le.1 br).2
    have lip := logf_lip er (abs_le.1 br).1 (by linarith)
    have hlz : log (binary64.val z) = log (1 + (binary64.val z * binary64.val ic - 1)) - log (binary64.val ic) := by
      rw [show 1 + (binary64.val z * binary64.val ic - 1) = binary64.val z * binary64.val ic by ring, log_mul hz0.ne' (by linarith)]; ring
    have hLx := hlx
    rw [hlz] at hLx
    have P2 : |binary64.val r * (ln2N / 2 ^ 160 * log2PF (binary64.val r)) - log (1 + binary64.val r)| ≤ 6085 / 10000 / 2 ^ 24 * |log (binary32.val x)| := by
      by_cases hr : binary64.val r ≤ 1 / 40
      · refine (P.2 hr).trans ?_
        norm_num at L1 ⊢; linarith
      · refine P.1.trans ?_
        have := L3 (by have := (abs_le.1 er).2; norm_num at this hr ⊢; linarith)
        norm_num at this ⊢; linarith
    rw [Nat.cast_pow, Nat.cast_ofNat] at elc
    have hln := ln2N_near
    have hlo := log2_lo
    have bQ := Q.bd
    rw [vk] at bQ ey
    have nV : |(binary64.val lc + k + binary64.val r * log2PF (binary64.val r)) * (log 2 - ln2N / 2 ^ 160)| ≤ (2 + |(k : ℝ)|) * (1 / 2 ^ 150) := abs_mul_le bQ hln
    have n1 : |(k : ℝ) * (ln2N / 2 ^ 160 - log 2)| ≤ |(k : ℝ)| * (1 / 2 ^ 150) := abs_mul_le le_rfl (by rw [abs_sub_comm]; exact hln)
    have ey2 : |(binary64.val y - (binary64.val lc + k + binary64.val r * log2PF (binary64.val r))) * log 2| ≤ (1 / 2 ^ 52 * (8 + 4 * |(k : ℝ)|)) * 1 :=
      abs_mul_le (ey.trans (mul_le_mul_of_nonneg_right (ru_le md) (add_nonneg (by norm_num) (mul_nonneg (by norm_num) (abs_nonneg _)))))
        (by rw [abs_of_pos (lt_of_lt_of_le (by norm_num) hlo.1)]; exact hlo.2.trans (by norm_num))
    have hLa : 1 / 2 ^ 30 ≤ |log (binary32.val x)| := le_trans (by norm_num) L1
    have hLb : |log (binary32.val x)| ≤ 130 := L4.trans ((add_le_add_left (mul_le_mul_of_nonneg_right hkr (by norm_num)) _).trans (by norm_num))
    refine log2f_final fy hLa hLb ?_
    have e : binary64.val y * log 2 - log (binary32.val x) = (binary64.val y - (binary64.val lc + k + binary64.val r * log2PF (binary64.val r))) * log 2
        + (log (binary64.val ic) + binary64.val lc * (ln2N / 2 ^ 160)) + (k : ℝ) * (ln2N / 2 ^ 160 - log 2)
        + (binary64.val lc + k + binary64.val r * log2PF (binary64.val r)) * (log 2 - ln2N / 2 ^ 160)
        + (binary64.val r * (ln2N / 2 ^ 160 * log2PF (binary64.val r)) - log (1 + binary64.val r))
        + (log (1 + binary64.val r) - log (1 + (binary64.val z * binary64.val ic - 1))) := by
      rw [hLx]; ring
    rw [e]
    refine (abs_add_le' (abs_add_le' (abs_add_le' (abs_add_le' (abs_add_le' ey2 elc) n1) nV) P2) lip).trans ?_
    norm_num at L1 L2 ⊢
    linarith

end Verif
