import Verif.Lemmas.LogF1
import Verif.Lemmas.LogD4

/-!
# The float logarithm: assembly
-/

namespace Verif
open Fmt Real

/-- the reduced argument `z invc - 1`, computed in double -/
theorem logf_r (md : Mode) {z ic : ℕ} (hz : binary64.Finite z) (hi : binary64.Finite ic) (bz : |binary64.val z| ≤ 2) (bi : |binary64.val ic| ≤ 2)
    (h1 : -(10 / 351) ≤ binary64.val z * binary64.val ic - 1) (h2 : binary64.val z * binary64.val ic - 1 ≤ 3 / 97) :
    binary64.Finite (binary64.hsub md (binary64.hmul md z ic) 0x3FF0000000000000) ∧
      |binary64.val (binary64.hsub md (binary64.hmul md z ic) 0x3FF0000000000000) - (binary64.val z * binary64.val ic - 1)| ≤ 1 / 2 ^ 48 ∧
      |binary64.val (binary64.hsub md (binary64.hmul md z ic) 0x3FF0000000000000)| ≤ 1 / 32 ∧
      -(1 / 35) ≤ binary64.val (binary64.hsub md (binary64.hmul md z ic) 0x3FF0000000000000) := by
  have Z : Ap md z _ 2 0 := Ap.exact hz bz
  have I : Ap md ic _ 2 0 := Ap.exact hi bi
  have O : Ap md 0x3FF0000000000000 1 1 0 := Ap.ofVal fval_one64.1 fval_one64.2 (by simp)
  have M := Z.mul I (B := 4) (e := 5) (by norm_num) (by norm_num) (by norm_num)
  have S := M.sub O (S := 1 / 30) (B := 1 / 30) (e := 6) (by rw [abs_le]; constructor <;> linarith) le_rfl (by norm_num) (by norm_num)
  have e : |binary64.val (binary64.hsub md (binary64.hmul md z ic) 0x3FF0000000000000) - (binary64.val z * binary64.val ic - 1)| ≤ 1 / 2 ^ 48 := by
    refine S.err.trans ?_
    have := mul_le_mul_of_nonneg_right (ru_le md) (show (0 : ℝ) ≤ 6 by norm_num)
    refine this.trans (by norm_num)
  refine ⟨S.fin, e, ?_, ?_⟩
  · have := abs_le.1 e
    rw [abs_le]; norm_num at this ⊢; constructor <;> linarith
  · have := abs_le.1 e
    norm_num at this ⊢; linarith

/-- distance of `log (1 + r)` and `log (1 + R)` -/
theorem logf_lip {r R : ℝ} (e : |r - R| ≤ 1 / 2 ^ 48) (h1 : -(1 / 32) ≤ r) (h2 : -(1 / 32) ≤ R) : |log (1 + r) - log (1 + R)| ≤ 1 / 2 ^ 47 := by
  have := log_lip (a := 1 + r) (b := 1 + R) (m := 1 / 2) (by norm_num) (by linarith) (by linarith)
  refine this.trans ?_
  rw [show 1 + r - (1 + R) = r - R by ring, div_le_iff₀ (by norm_num)]
  refine e.trans (by norm_num)

theorem logPF_err {r : ℝ} (h1 : -(1 / 35) ≤ r) (h2 : r ≤ 1 / 32) :
    |r * logPF r - log (1 + r)| ≤ 2951 / 2 ^ 40 ∧ (r ≤ 1 / 40 → |r * logPF r - log (1 + r)| ≤ 723 / 2 ^ 40) := by
  have hb : |r| ≤ 1 / 32 := by rw [abs_le]; constructor <;> linarith
  have t := logTf_near hb
  have t' : |r * logTf r - log (1 + r)| ≤ 2 / 2 ^ 40 := by
    refine t.trans ?_
    have := mul_le_mul_of_nonneg_right hb (show (0 : ℝ) ≤ 11 / 10 / 32 ^ 7 by positivity)
    refine this.trans (by norm_num)
  have e : r * logPF r - log (1 + r) = r * (logPF r - logTf r) + (r * logTf r - log (1 + r)) := by ring
  rw [e]
  constructor
  · exact (abs_add_le' (logPFc_near (by linarith) h2) t').trans (by norm_num)
  · intro h3
    exact (abs_add_le' (logPFb_near h1 h3) t').trans (by norm_num)

theorem logf_near_ge {R : ℝ} (h : |R| ≤ 1 / 40) : |R| * (40 / 41) ≤ |log (1 + R)| := by
  obtain ⟨h1, h2⟩ := abs_le.1 h
  rcases le_total 0 R with h0 | h0
  · have := Real.one_sub_inv_le_log_of_pos (x := 1 + R) (by linarith)
    rw [abs_of_nonneg h0]
    refine le_trans ?_ (le_trans this (le_abs_self _))
    rw [le_sub_iff_add_le, ← le_sub_iff_add_le', inv_le_comm₀ (by linarith) (by linarith)]
    rw [inv_eq_one_div, div_le_iff₀ (by linarith)]
    nlinarith
  · have := Real.log_le_sub_one_of_pos (x := 1 + R) (by linarith)
    rw [abs_of_nonpos h0, abs_of_nonpos (by linarith)]
    linarith

/-- the case of arguments near 1 -/
theorem logf_near (md : Mode) {z n kd : ℕ} (fz : binary64.Finite z) (hz : binary64.val z = n / 2 ^ 24) (hn : n ≠ 2 ^ 24) (hn1 : n ≤ 17170432) (hn2 : 16449536 ≤ n)
    (fk : binary64.Finite kd) (vk : binary64.val kd = 0) :
    let mul := binary64.hmul md
    let add := binary64.hadd md
    let r := binary64.hsub md (mul z 0x3FF0000000000000) 0x3FF0000000000000
    let r2 := mul r r
    let y := binary32.hcvt binary64 md (add (mul (add (mul CC.logAf0 r2) (add (mul CC.logAf1 r) CC.logAf2)) r2) (add (add 0 (mul kd CC.logLn2f)) r))
    binary32.Finite y ∧ |binary32.val y - log (binary64.val z)| ≤ ruf md * (13 / 8 * |log (binary64.val z)|) := by
  intro mul add r r2 y
  have g1 : (n : ℝ) ≤ 17170432 := by exact_mod_cast hn1
  have g2 : (16449536 : ℝ) ≤ n := by exact_mod_cast hn2
  have hzb : |binary64.val z| ≤ 2 := by
    rw [hz, abs_of_nonneg (by positivity), div_le_iff₀ (by positivity)]; norm_num; linarith
  have mz : Mult (-24) (binary64.val z) := ⟨n, by rw [hz]; push_cast; norm_num; ring⟩
  obtain ⟨f1, v1⟩ := ex64 (-24) (hmul_spec binary64 md fz fval_one64.1) (by rw [fval_one64.2, mul_one]; exact mz) (by norm_num)
    (by rw [fval_one64.2, mul_one]; exact hzb.trans (by norm_num)) (by rw [fval_one64.2, mul_one]; exact hzb.trans (by norm_num))
  rw [fval_one64.2, mul_one] at v1
  have e1 : binary64.val z - 1 = ((n : ℤ) - 2 ^ 24 : ℤ) / 2 ^ 24 := by rw [hz, Int.cast_sub, sub_div]; norm_num
  have b1 : |binary64.val z - 1| ≤ 1 / 40 := by
    rw [hz, abs_le]; constructor
    · rw [le_sub_iff_add_le, le_div_iff₀ (by positivity)]; norm_num; linarith
    · rw [sub_le_iff_le_add, div_le_iff₀ (by positivity)]; norm_num; linarith
  obtain ⟨fr, vr⟩ := ex64 (-24) (hsub_spec binary64 md f1 fval_one64.1) (by rw [v1, fval_one64.2]; exact ⟨(n : ℤ) - 2 ^ 24, by rw [e1]; push_cast; norm_num; ring⟩) (by norm_num)
    (by rw [v1, fval_one64.2]; exact b1.trans (by norm_num)) (by rw [v1, fval_one64.2]; exact b1.trans (by norm_num))
  rw [v1, fval_one64.2] at vr
  change binary64.Finite r at fr
  change binary64.val r = _ at vr
  have hr0 : 1 / 2 ^ 24 ≤ |binary64.val r| := by
    rw [vr, e1, abs_div, abs_of_pos (show (0 : ℝ) < 2 ^ 24 by positivity)]
    refine div_le_div_of_nonneg_right ?_ (by positivity)
    rw [← Int.cast_abs]
    exact_mod_cast Int.one_le_abs (show (n : ℤ) - 2 ^ 24 ≠ 0 by omega)
  have br : |binary64.val r| ≤ 1 / 40 := by rw [vr]; exact b1
  have f00 : binary64.Finite 0 := by decide +kernel
  have v00 : binary64.val 0 = 0 := (binary64.val_eq_zero_iff _).2 (by decide +kernel)
  obtain ⟨f2, v2⟩ := ex64 0 (hmul_spec binary64 md fk val_logLn2f.1) (by rw [vk, zero_mul]; exact ⟨0, by simp⟩) (by norm_num) (by rw [vk]; norm_num) (by rw [vk]; norm_num)
  rw [vk, zero_mul] at v2
  obtain ⟨f3, v3⟩ := ex64 0 (hadd_spec binary64 md f00 f2) (by rw [v00, v2, zero_add]; exact ⟨0, by simp⟩) (by norm_num) (by rw [v00, v2]; norm_num) (by rw [v00, v2]; norm_num)
  rw [v00, v2, zero_add] at v3
  have Q := logf_q_near md f3 v3 fr hr0 br le_rfl
  have fy := Q.fin
  have ey := Q.err
  change binary64.Finite (add (mul (add (mul CC.logAf0 r2) (add (mul CC.logAf1 r) CC.logAf2)) r2) (add (add 0 (mul kd CC.logLn2f)) r)) at fy
  change |binary64.val (add (mul (add (mul CC.logAf0 r2) (add (mul CC.logAf1 r) CC.logAf2)) r2) (add (add 0 (mul kd CC.logLn2f)) r)) - _| ≤ _ at ey
  have hlz : log (binary64.val z) = log (1 + binary64.val r) := by rw [vr]; congr 1; ring
  rw [hlz]
  generalize binary64.val r = R at *
  have hL : |R| * (40 / 41) ≤ |log (1 + R)| := logf_near_ge br
  have hL2 : |log (1 + R)| ≤ 1 := by
    have h1 := Real.log_le_sub_one_of_pos (x := 1 + R) (by have := (abs_le.1 br).1; linarith)
    have h2 := Real.one_sub_inv_le_log_of_pos (x := 1 + R) (by have := (abs_le.1 br).1; linarith)
    have h3 : (1 + R)⁻¹ ≤ 2 := by rw [inv_le_comm₀ (by have := (abs_le.1 br).1; linarith) (by norm_num)]; have := (abs_le.1 br).1; linarith
    rw [abs_le]; constructor <;> linarith [(abs_le.1 br).2]
  have ht := logTf_near (br.trans (by norm_num : (1 / 40 : ℝ) ≤ 1 / 32))
  have hp := abs_mul_le (le_refl |R|) (logPFa_near (abs_le.1 br).1 (abs_le.1 br).2)
  refine logf_final fy (by norm_num at hr0 hL ⊢; linarith) (hL2.trans (by norm_num)) ?_
  have e : R * logPF R - log (1 + R) = R * (logPF R - logTf R) + (R * logTf R - log (1 + R)) := by ring
  have hpt : |R * logPF R - log (1 + R)| ≤ |R| * (22282 / 2 ^ 40) + |R| * (11 / 10 / 32 ^ 7) := by rw [e]; exact abs_add_le' hp ht
  refine (abs_tri ey hpt).trans ?_
  have h1 := mul_le_mul_of_nonneg_right (ru_le md) (show 0 ≤ 4 * |R| by positivity)
  norm_num at h1 hL ⊢
  linarith

theorem logFloatImpl_err (md : Mode) {x : ℕ} (hx : binary32.Finite x) (h : 0 < binary32.val x) :
    binary32.Finite (CC.logFloatImpl md x) ∧ |binary32.val (CC.logFloatImpl md x) - log (binary32.val x)| ≤ ruf md * (13 / 8 * |log (binary32.val x)|) := by
  by_cases hx1 : x = 0x3f800000
  · subst hx1
    have e1 : binary32.val 0x3f800000 = 1 := by
      rw [zint_val (by norm_num) (by norm_num), show zint 0x3f800000 = 2 ^ 24 from by decide +kernel]; norm_num
    have e0 : binary32.val 0 = 0 := (binary32.val_eq_zero_iff _).2 (by decide +kernel)
    rw [e1, log_one, show CC.logFloatImpl md 0x3f800000 = 0 from by unfold CC.logFloatImpl; simp, e0]
    exact ⟨by decide +kernel, by simp⟩
  obtain ⟨k, d, hd, hk1, hk2, hr, hzf, hxz, hk0⟩ := red32 md hx h
  dsimp only at hr
  obtain ⟨hr1, hr3, hr4⟩ := hr
  unfold CC.logFloatImpl
  rw [if_neg hx1]
  dsimp only
  rw [hr1, hr3, hr4]
  clear hr1 hr3 hr4
  have hi16 : d / 2 ^ 19 < 16 := by omega
  have tab := logTabOkf_spec (logTabf_ok (d / 2 ^ 19) hi16) (by norm_num)
  obtain ⟨fi, fl, hi1, hi2, hlc, elc, hzr, hi10⟩ := tab
  have hzv := zint_val (P := 0x3f330000 + d) (by omega) (by omega)
  have hzb := hzr (binary32.val (0x3f330000 + d))
    (by rw [hzv]
        have : (zint (0x3f330000 + d / 2 ^ 19 * 2 ^ 19) : ℝ) ≤ zint (0x3f330000 + d) := by exact_mod_cast zint_mono (by omega) (by omega) (by omega)
        exact div_le_div_of_nonneg_right this (by positivity))
    (by rw [hzv]
        have : (zint (0x3f330000 + d) : ℝ) ≤ zint (0x3f330000 + (d / 2 ^ 19 + 1) * 2 ^ 19) := by exact_mod_cast zint_mono (by omega) (by omega) (by omega)
        exact div_le_div_of_nonneg_right this (by positivity))
  obtain ⟨hR1, hR2, hR8⟩ := hzb
  obtain ⟨fz, vz⟩ := cvt_up md hzf
  have hz0 : 0 < binary32.val (0x3f330000 + d) := by
    rw [hxz] at h
    exact pos_of_mul_pos_left h (by positivity)
  have hz2 : binary32.val (0x3f330000 + d) ≤ 2 := by
    rw [hzv, div_le_iff₀ (by positivity)]
    have : zint (0x3f330000 + d) ≤ zint (0x3f330000 + 2 ^ 23) := zint_mono (by omega) (by omega) (by norm_num)
    rw [show zint (0x3f330000 + 2 ^ 23) = 23461888 from by decide +kernel] at this
    have : (zint (0x3f330000 + d) : ℝ) ≤ 23461888 := by exact_mod_cast this
    exact this.trans (by norm_num)
  have hlx : log (binary32.val x) = k * log 2 + log (binary32.val (0x3f330000 + d)) := by
    rw [hxz, log_mul hz0.ne' (by positivity), log_zpow]; ring
  obtain ⟨fk, vk⟩ := ofInt_ex64 md (z := k) (by rw [abs_le]; constructor <;> omega)
  have hkr : |(k : ℝ)| ≤ 160 := by rw [abs_le]; constructor <;> [(have : (-160 : ℤ) ≤ k := by omega); skip] <;> exact_mod_cast by omega
  by_cases h9 : d / 2 ^ 19 = 9 ∧ k = 0
  · -- near 1
    obtain ⟨h9, rfl⟩ := h9
    have hxd := hk0 rfl
    rw [h9, show CC.logInvcf.getD 9 0 = 0x3FF0000000000000 from by decide +kernel, show CC.logLogcf.getD 9 0 = 0 from by decide +kernel]
    have hne : zint (0x3f330000 + d) ≠ 2 ^ 24 ∧ zint (0x3f330000 + d) ≤ 17170432 ∧ 16449536 ≤ zint (0x3f330000 + d) := by
      unfold zint
      have : (0x3f330000 + d) / 2 ^ 23 = 126 ∨ (0x3f330000 + d) / 2 ^ 23 = 127 := by omega
      rcases this with h | h <;> rw [h] <;> norm_num <;> omega
    simp only [Int.cast_zero, zero_mul, zero_add] at hlx
    rw [hlx]
    rw [← vz] at hzv ⊢
    clear hR1 hR2 hR8 hzr elc hlx hxz hz0 hz2 hk0 hi10
    generalize binary64.hcvt binary32 md (0x3f330000 + d) = z at *
    exact logf_near md fz hzv hne.1 hne.2.1 hne.2.2 fk (by simpa using vk)
  · -- the general case
    obtain ⟨L1, L2, L3, L4⟩ := logf_L hd k hzv (by linarith) hi10 hR8 h9
    rw [← hlx] at L1 L2 L3 L4
    rw [← vz] at hR1 hR2 hR8 hz0 hz2 hlx L3
    generalize binary64.hcvt binary32 md (0x3f330000 + d) = z at *
    generalize CC.logInvcf.getD (d / 2 ^ 19) 0 = ic at *
    generalize CC.logLogcf.getD (d / 2 ^ 19) 0 = lc at *
    obtain ⟨fr, er, br, br'⟩ := logf_r md fz fi (by rw [abs_of_pos hz0]; exact hz2) (by rw [abs_of_pos (by linarith)]; exact hi2) hR1 hR2
    generalize binary64.hsub md (binary64.hmul md z ic) 0x3FF0000000000000 = r at *
    generalize binary64.ofInt md k = kd at *
    have Q := logf_q md fl fk fr (abs_nonneg (k : ℝ)) (hkr.trans (by norm_num)) hlc (by rw [vk]) (br.trans (by norm_num))
    have fy := Q.fin
    have ey := Q.err
    generalize binary64.hadd md (binary64.hmul md _ _) (binary64.hadd md (binary64.hadd md _ _) _) = y at *
    have P := logPF_err br' (abs_le.1 br).2
    have lip := logf_lip er (abs_le.1 br).1 (by linarith)
    have hlz : log (binary64.val z) = log (1 + (binary64.val z * binary64.val ic - 1)) - log (binary64.val ic) := by
      rw [show 1 + (binary64.val z * binary64.val ic - 1) = binary64.val z * binary64.val ic by ring, log_mul hz0.ne' (by linarith)]; ring
    have hLx := hlx
    rw [hlz] at hLx
    have P2 : |binary64.val r * logPF (binary64.val r) - log (1 + binary64.val r)| ≤ 608 / 1000 / 2 ^ 24 * |log (binary32.val x)| := by
      by_cases hr : binary64.val r ≤ 1 / 40
      · refine (P.2 hr).trans ?_
        norm_num at L1 ⊢; linarith
      · refine P.1.trans ?_
        have := L3 (by have := (abs_le.1 er).2; norm_num at this hr ⊢; linarith)
        norm_num at this ⊢; linarith
    simp only [Nat.cast_one, div_one, mul_one] at elc
    have n1 : |(k : ℝ) * (6243314768165359 / 2 ^ 53 - log 2)| ≤ |(k : ℝ)| * (1 / 2 ^ 53) := by
      refine abs_mul_le le_rfl ?_
      obtain ⟨b1, b2⟩ := ln2_bounds
      rw [abs_le]; norm_num at b1 b2 ⊢; constructor <;> linarith
    have ey2 : |binary64.val y - (binary64.val lc + binary64.val kd * (6243314768165359 / 2 ^ 53) + binary64.val r * logPF (binary64.val r))| ≤ 1 / 2 ^ 52 * (8 + 4 * |(k : ℝ)|) :=
      ey.trans (mul_le_mul_of_nonneg_right (ru_le md) (add_nonneg (by norm_num) (mul_nonneg (by norm_num) (abs_nonneg _))))
    have hLa : 1 / 2 ^ 30 ≤ |log (binary32.val x)| := le_trans (by norm_num) L1
    have hLb : |log (binary32.val x)| ≤ 200 := L4.trans ((add_le_add_left (mul_le_mul_of_nonneg_right hkr (by norm_num)) _).trans (by norm_num))
    refine logf_final fy hLa hLb ?_
    have e : binary64.val y - log (binary32.val x) = (binary64.val y - (binary64.val lc + binary64.val kd * (6243314768165359 / 2 ^ 53) + binary64.val r * logPF (binary64.val r)))
        + (log (binary64.val ic) + binary64.val lc) + (k : ℝ) * (6243314768165359 / 2 ^ 53 - log 2) + (binary64.val r * logPF (binary64.val r) - log (1 + binary64.val r))
        + (log (1 + binary64.val r) - log (1 + (binary64.val z * binary64.val ic - 1))) := by
      rw [hLx, vk]; ring
    rw [e]
    refine (abs_add_le' (abs_add_le' (abs_add_le' (abs_add_le' ey2 elc) n1) P2) lip).trans ?_
    norm_num at L1 L2 ⊢
    linarith

end Verif
