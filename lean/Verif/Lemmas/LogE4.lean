import Verif.Lemmas.LogE3
import Mathlib.Analysis.SpecialFunctions.Log.Base

/-!
# The double base-2 logarithm: assembly of the two branches
-/

namespace Verif
open Fmt Real

theorem log2Logc_mult : ∀ i < 64, ints 112 (CC.log2Logc.getD i 0) % 2 ^ 70 = 0 ∧ intsOk 112 (CC.log2Logc.getD i 0) = true := by decide +kernel

theorem ln2N_near : |log 2 - ln2N / 2 ^ 160| ≤ 1 / 2 ^ 150 := by
  have h := ln2_bounds
  unfold ln2N
  rw [abs_le]
  push_cast
  constructor <;> norm_num at h ⊢ <;> linarith [h.1, h.2]

theorem log2_lo : (693 / 1000 : ℝ) ≤ log 2 ∧ log 2 ≤ 6932 / 10000 := by
  have h := ln2_bounds
  constructor <;> norm_num at h ⊢ <;> linarith [h.1, h.2]

/-- dividing a natural-logarithm error by `log 2` -/
theorem div_ln2 {v l E : ℝ} (h : |v * log 2 - l| ≤ E) : |v - l / log 2| ≤ E * (1444 / 1000) := by
  have h1 := log2_lo.1
  have h0 : 0 < log 2 := by linarith
  have e : v - l / log 2 = (v * log 2 - l) / log 2 := by field_simp
  rw [e, abs_div, abs_of_pos h0, div_le_iff₀ h0]
  have hE : 0 ≤ E := (abs_nonneg _).trans h
  nlinarith

theorem log2Main_err (md : Mode) {x : ℕ} (hx : binary64.Finite x) (h : 0 < binary64.val x) (hL : 61 / 1000 ≤ |logb 2 (binary64.val x)|) :
    binary64.Finite (CC.log2Main md (CC.logNorm md x)) ∧
      |binary64.val (CC.log2Main md (CC.logNorm md x)) - logb 2 (binary64.val x)| ≤ ru md * (9 / 5 * |logb 2 (binary64.val x)|) ∧
      ∃ zs s, binary64.RoundsTo md zs s (CC.log2Main md (CC.logNorm md x)) ∧ |s - logb 2 (binary64.val x)| ≤ ru md * (1 / 20) := by
  obtain ⟨k, d, hd, hk1, hk2, hr, hzf, hxz, -⟩ := red64 md hx h
  dsimp only at hr
  obtain ⟨-, hr1, hr3, hr4⟩ := hr
  unfold CC.log2Main
  dsimp only
  rw [hr1, hr3, hr4]
  obtain ⟨i, hi⟩ : ∃ i, i = d / 2 ^ 46 := ⟨_, rfl⟩
  have hi64 : i < 64 := by omega
  rw [← hi]
  have tab := logTabOk_spec (log2Tab_ok i hi64) (by norm_num)
  have ml := log2Logc_mult i hi64
  have mlc : Mult (-42) (binary64.val (CC.log2Logc.getD i 0)) := mult_of_ints 70 42 (intsOk_spec ml.2).2 ml.1
  obtain ⟨fi, fl, fc, fcl, hc1, hc2, hic, -, bcl, mch, blc, elc, hz⟩ := tab
  have hzc := hz (binary64.val (0x3fe6000000000000 + d)) (pat_le (by omega) (by omega)) (pat_le (by omega) (by omega))
  have mz := z_mult hd
  generalize 0x3fe6000000000000 + d = z at *
  clear hz hr1 hr3 hr4 ml
  generalize CC.log2Invc.getD i 0 = ic at *
  generalize CC.log2Logc.getD i 0 = lc at *
  generalize CC.log2Chi.getD i 0 = ch at *
  generalize CC.log2Clo.getD i 0 = cl at *
  obtain ⟨c, hc⟩ : ∃ c, binary64.val ch + binary64.val cl = c := ⟨_, rfl⟩
  rw [hc] at hc1 hc2 hic elc hzc
  rw [Nat.cast_pow, Nat.cast_ofNat] at blc elc
  have hc0 : 0 < c := by linarith
  obtain ⟨fr, er, bR⟩ := log_r md hzf fc fcl fi mz mch hc hc1 hc2 bcl hic (ρ := (7752 : ℕ) / 10 ^ 6) (by norm_num) (by norm_num) hzc
  generalize binary64.hmul md (binary64.hsub md (binary64.hsub md z ch) cl) ic = r at *
  have hu := ru_pos md
  have hu1 := ru_ge md
  have hu2 := ru_le md
  have hln := ln2N_near
  have hlo := log2_lo
  have hΛ : (69 / 100 : ℝ) ≤ ln2N / 2 ^ 160 ∧ (ln2N : ℝ) / 2 ^ 160 ≤ 7 / 10 := by
    unfold ln2N; push_cast; constructor <;> norm_num
  have blc' : |binary64.val lc| ≤ 2 := by
    have := mul_le_mul_of_nonneg_left hΛ.1 (abs_nonneg (binary64.val lc))
    linarith
  obtain ⟨fk, vk⟩ := ofInt_ex64 md (z := k) (by rw [abs_le]; constructor <;> omega)
  generalize binary64.ofInt md k = kd at *
  have hkr : |(k : ℝ)| ≤ 1100 := by rw [abs_le]; constructor <;> [(have : (-1100 : ℤ) ≤ k := by omega); skip] <;> exact_mod_cast by omega
  have mw : Mult (-42) (binary64.val kd + binary64.val lc) := by
    refine Mult.add ⟨k * 2 ^ 42, ?_⟩ mlc
    rw [vk]; push_cast; norm_num; ring
  have bw : |binary64.val kd + binary64.val lc| ≤ 1102 := by
    rw [vk]; exact (abs_add_le' hkr blc').trans (by norm_num)
  obtain ⟨fw, vw⟩ := ex64 (-42) (binary64.hadd_spec md fk fl) mw (by norm_num) (bw.trans (by norm_num)) (bw.trans (by norm_num))
  rw [← vw] at bw
  rw [vk] at vw
  generalize binary64.hadd md kd lc = w at *
  set R' := (binary64.val z - c) / c with hR'
  norm_num at er bR
  have er' : |binary64.val r - R'| ≤ ru md * (15505 / 10 ^ 6) := er.trans (mul_le_mul_of_nonneg_left (by norm_num) hu.le)
  have br : |binary64.val r| ≤ 7753 / 10 ^ 6 := by
    refine (abs_near er' bR).trans ?_
    have := mul_le_mul_of_nonneg_right hu2 (show (0 : ℝ) ≤ 15505 / 10 ^ 6 by positivity)
    norm_num at this ⊢; linarith
  obtain ⟨fres, eres, zs, s, hs1, hs2⟩ := log2_q md fw fr (bw.trans (by norm_num)) br
  refine ⟨fres, ?_⟩
  suffices S : _ ∧ |s - logb 2 (binary64.val x)| ≤ ru md * (1 / 20) from ⟨S.1, zs, s, hs1, S.2⟩
  clear hs1
  generalize binary64.val (binary64.hadd md _ _) = res at *
  have hlx : log (binary64.val x) = k * log 2 + log (binary64.val z) := by
    rw [hxz, log_mul, log_zpow]
    · ring
    · intro h0; rw [hxz, h0, zero_mul] at h; exact lt_irrefl _ h
    · positivity
  have hlz : log (binary64.val z) = log c + log (1 + R') := by
    rw [← log_mul hc0.ne' (by have := (abs_le.1 bR).1; intro h0; linarith)]
    congr 1
    rw [hR']; field_simp; ring
  have hLb : logb 2 (binary64.val x) = log (binary64.val x) / log 2 := rfl
  set V := binary64.val w + binary64.val r * log2PA (binary64.val r) with hV
  set Λ : ℝ := ln2N / 2 ^ 160 with hΛd
  -- V log 2 against log x
  have br2 : |binary64.val r| ≤ 1 / 128 := br.trans (by norm_num)
  have n3 := log2PA_near br2
  have n4 := log2PAT_near br2
  rw [← hΛd] at n3
  have n4' : |binary64.val r * log2PAT (binary64.val r) - log (1 + binary64.val r)| ≤ 1 / 2 ^ 80 := by
    refine n4.trans ?_
    have := mul_le_mul_of_nonneg_right br2 (show (0 : ℝ) ≤ 11 / 10 / 128 ^ 12 by positivity)
    norm_num at this ⊢; linarith
  have n5 : |log (1 + binary64.val r) - log (1 + R')| ≤ ru md * (15632 / 10 ^ 6) := by
    have := log_lip (a := 1 + binary64.val r) (b := 1 + R') (m := 992 / 1000) (by norm_num) (by have := (abs_le.1 br).1; norm_num at this ⊢; linarith) (by have := (abs_le.1 bR).1; linarith)
    refine this.trans ?_
    rw [show 1 + binary64.val r - (1 + R') = binary64.val r - R' by ring, div_le_iff₀ (by norm_num)]
    refine er'.trans ?_
    rw [mul_assoc]
    exact mul_le_mul_of_nonneg_left (by norm_num) hu.le
  have n2 : |binary64.val lc * Λ - log c| ≤ 101 / 100 / 2 ^ 66 := by rw [abs_sub_comm]; exact elc
  have bPA : |binary64.val r * log2PA (binary64.val r)| ≤ 1 := by
    have h1 : |binary64.val r * (Λ * log2PA (binary64.val r)) - log (1 + binary64.val r)| ≤ 2 / 2 ^ 65 + 1 / 2 ^ 80 := by
      have := abs_add_le' n3 n4'
      rwa [show binary64.val r * (Λ * log2PA (binary64.val r) - log2PAT (binary64.val r)) + (binary64.val r * log2PAT (binary64.val r) - log (1 + binary64.val r)) =
        binary64.val r * (Λ * log2PA (binary64.val r)) - log (1 + binary64.val r) by ring] at this
    have h2 : |log (1 + binary64.val r)| ≤ 1 / 10 := by
      have := log_lip (a := 1 + binary64.val r) (b := 1) (m := 9 / 10) (by norm_num) (by have := (abs_le.1 br).1; norm_num at this ⊢; linarith) (by norm_num)
      rw [log_one, sub_zero, add_sub_cancel_left] at this
      refine this.trans ?_
      norm_num at br2 ⊢; linarith
    have h3 := abs_near h1 h2
    rw [show binary64.val r * (Λ * log2PA (binary64.val r)) = Λ * (binary64.val r * log2PA (binary64.val r)) by ring, abs_mul, abs_of_pos (show 0 < Λ by linarith [hΛ.1])] at h3
    have h4 := mul_le_mul_of_nonneg_right hΛ.1 (abs_nonneg (binary64.val r * log2PA (binary64.val r)))
    have h5 : (1 / 10 + (2 / 2 ^ 65 + 1 / 2 ^ 80) : ℝ) ≤ 69 / 100 := by norm_num
    have h6 := h4.trans (h3.trans h5)
    linarith
  have n1 : |(binary64.val lc + binary64.val r * log2PA (binary64.val r)) * (log 2 - Λ)| ≤ 3 * (1 / 2 ^ 150) :=
    abs_mul_le ((abs_add_le' blc' bPA).trans (by norm_num)) hln
  have eVL : V * log 2 - log (binary64.val x) = (binary64.val lc + binary64.val r * log2PA (binary64.val r)) * (log 2 - Λ) + (binary64.val lc * Λ - log c) +
      binary64.val r * (Λ * log2PA (binary64.val r) - log2PAT (binary64.val r)) + (binary64.val r * log2PAT (binary64.val r) - log (1 + binary64.val r)) +
      (log (1 + binary64.val r) - log (1 + R')) := by
    rw [hV, hlx, hlz, vw]; ring
  have nV : |V * log 2 - log (binary64.val x)| ≤ ru md * (1627 / 10 ^ 5) := by
    rw [eVL]
    refine (abs_add_le' (abs_add_le' (abs_add_le' (abs_add_le' n1 n2) n3) n4') n5).trans ?_
    have h1 := mul_le_mul_of_nonneg_right hu1 (show (0 : ℝ) ≤ 638 / 10 ^ 6 by positivity)
    have h2 : (3 * (1 / 2 ^ 150) + 101 / 100 / 2 ^ 66 + 2 / 2 ^ 65 + 1 / 2 ^ 80 : ℝ) ≤ 1 / 2 ^ 53 * (638 / 10 ^ 6) := by norm_num
    have h3 : ru md * (1627 / 10 ^ 5) = ru md * (638 / 10 ^ 6) + ru md * (15632 / 10 ^ 6) := by ring
    linarith
  have nV2 := div_ln2 nV
  rw [← hLb] at nV2
  set L := logb 2 (binary64.val x) with hLdef
  clear_value V L
  clear eVL hV n1 n2 n3 n4 n4' n5 hlx hlz nV
  have nV3 : |V - L| ≤ ru md * (235 / 10 ^ 4) := nV2.trans (by rw [mul_assoc]; exact mul_le_mul_of_nonneg_left (by norm_num) hu.le)
  have bV := abs_near nV3 (le_refl |L|)
  refine ⟨(abs_tri eres nV3).trans ?_, (abs_tri hs2 nV3).trans (by rw [← mul_add]; exact mul_le_mul_of_nonneg_left (by norm_num) hu.le)⟩
  have h4 := mul_le_mul_of_nonneg_left bV hu.le
  have h5 : ru md * (ru md * (235 / 10 ^ 4)) ≤ ru md * (1 / 10 ^ 9) := by
    refine mul_le_mul_of_nonneg_left ?_ hu.le
    have := mul_le_mul_of_nonneg_right hu2 (show (0 : ℝ) ≤ 235 / 10 ^ 4 by positivity)
    norm_num at this ⊢; linarith
  calc _ ≤ ru md * |L| + ru md * (1 / 10 ^ 9) + ru md * (227 / 10 ^ 4) + ru md * (235 / 10 ^ 4) := by linarith
    _ = ru md * (|L| + (1 / 10 ^ 9 + 227 / 10 ^ 4 + 235 / 10 ^ 4)) := by ring
    _ ≤ _ := mul_le_mul_of_nonneg_left (by norm_num; linarith) hu.le

theorem log2Near_err (md : Mode) {x : ℕ} (h1 : 0x3FEEA4AF00000000 ≤ x) (h2 : x < 0x3FF0B55900000000) (hne : x ≠ 0x3FF0000000000000) :
    binary64.Finite (CC.log2Near md x) ∧ |binary64.val (CC.log2Near md x) - logb 2 (binary64.val x)| ≤ ru md * (9 / 5 * |logb 2 (binary64.val x)|) := by
  have hu := ru_pos md
  have hu1 := ru_ge md
  have hu2 := ru_le md
  have hln := ln2N_near
  have hlo := log2_lo
  have p := pat64 (P := x) (by omega) (by omega)
  obtain ⟨f1, v1⟩ := fval_one64
  have ml : Mult (-53) (binary64.val x) := by
    have := z_mult (d := x - 0x3fe6000000000000) (by omega)
    rwa [show 0x3fe6000000000000 + (x - 0x3fe6000000000000) = x by omega] at this
  have lo : (1 - 1 / 22 : ℝ) ≤ binary64.val x := by
    have := pat_le h1 (by omega)
    have q := pat64 (P := 0x3FEEA4AF00000000) (by norm_num) (by norm_num)
    rw [q.2] at this
    norm_num at this ⊢; linarith
  have hi : binary64.val x ≤ 1 + 1 / 22 := by
    have := pat_le h2.le (by norm_num)
    have q := pat64 (P := 0x3FF0B55900000000) (by norm_num) (by norm_num)
    rw [q.2] at this
    norm_num at this ⊢; linarith
  have ms : Mult (-53) (binary64.val x - 1) := ml.sub ⟨2 ^ 53, by norm_num⟩
  have bR : |binary64.val x - 1| ≤ 1 / 22 := by rw [abs_le]; constructor <;> linarith
  have R := binary64.hsub_spec md p.1 f1
  rw [v1] at R
  obtain ⟨fr, vr⟩ := ex64 (-53) R ms (by norm_num) (bR.trans (by norm_num)) (bR.trans (by norm_num))
  have hne' : binary64.val x - 1 ≠ 0 := by
    intro h0
    exact hne (pos_inj64 p.1 f1 (by rw [v1]; linarith) (by linarith))
  have lb : 1 / 2 ^ 53 ≤ |binary64.val x - 1| := by
    obtain ⟨m, hm⟩ := ms
    have hm0 : m ≠ 0 := by rintro rfl; rw [hm] at hne'; simp at hne'
    have : (1 : ℝ) ≤ |(m : ℝ)| := by exact_mod_cast Int.one_le_abs hm0
    rw [hm, abs_mul, abs_of_pos (show (0 : ℝ) < 2 ^ (-53 : ℤ) by positivity)]
    have := mul_le_mul_of_nonneg_right this (show (0 : ℝ) ≤ 2 ^ (-53 : ℤ) by positivity)
    rw [one_mul] at this
    refine le_trans ?_ this
    norm_num
  unfold CC.log2Near
  dsimp only
  generalize binary64.hsub md x 0x3FF0000000000000 = r at *
  obtain ⟨fres, eres⟩ := log2Near_eval md fr (a := |binary64.val x - 1|) (by rw [vr]) lb bR
  refine ⟨fres, ?_⟩
  generalize binary64.val (binary64.hadd md _ _) = res at *
  rw [vr] at eres
  have hx1 : binary64.val x = 1 + (binary64.val x - 1) := by ring
  have hLb : logb 2 (binary64.val x) = log (binary64.val x) / log 2 := rfl
  rw [hLb]
  clear hLb
  rw [hx1, show 1 + (binary64.val x - 1) - 1 = binary64.val x - 1 by ring] at *
  generalize binary64.val x - 1 = S at *
  have n1 := log2PP_near bR
  have n2 := log2PPT_near bR
  have n3 := log_ge_near (bR.trans (by norm_num))
  set a := |S| with ha
  have ha0 : 0 ≤ a := abs_nonneg S
  set Λ : ℝ := ln2N / 2 ^ 160 with hΛd
  have hΛ : (69 / 100 : ℝ) ≤ Λ := by
    rw [hΛd]; unfold ln2N; push_cast; norm_num
  have n1' : |S * (Λ * log2PP S - log2PPT S)| ≤ a * (5 / 2 ^ 60) := by
    rw [abs_mul]; exact mul_le_mul_of_nonneg_left n1 (abs_nonneg _)
  have h12 := abs_add_le' n1' n2
  rw [show S * (Λ * log2PP S - log2PPT S) + (S * log2PPT S - log (1 + S)) = Λ * (S * log2PP S) - log (1 + S) by ring] at h12
  have hll : |log (1 + S)| ≤ 2 * a := by
    have := log_lip (a := 1 + S) (b := 1) (m := 1 / 2) (by norm_num) (by have := (abs_le.1 bR).1; norm_num at this ⊢; linarith) (by norm_num)
    rw [log_one, sub_zero, add_sub_cancel_left] at this
    refine this.trans ?_
    rw [div_le_iff₀ (by norm_num)]; linarith
  have bP : |S * log2PP S| ≤ 4 * a := by
    have h3 := abs_near h12 hll
    rw [abs_mul, abs_of_pos (show 0 < Λ by linarith)] at h3
    have h4 := mul_le_mul_of_nonneg_right hΛ (abs_nonneg (S * log2PP S))
    have h5 : a * (5 / 2 ^ 60) + a * (11 / 10 / 22 ^ 16) ≤ a * (1 / 10) := by
      rw [← mul_add]; exact mul_le_mul_of_nonneg_left (by norm_num) ha0
    linarith
  have h0 := abs_mul_le bP hln
  have nV : |S * log2PP S * log 2 - log (1 + S)| ≤ ru md * (4 / 100 * a) := by
    have h5 := abs_add_le' h0 h12
    rw [show S * log2PP S * (log 2 - Λ) + (Λ * (S * log2PP S) - log (1 + S)) = S * log2PP S * log 2 - log (1 + S) by ring] at h5
    refine h5.trans ?_
    have h6 := mul_le_mul_of_nonneg_right hu1 (show (0 : ℝ) ≤ 4 / 100 * a by positivity)
    refine le_trans ?_ h6
    norm_num; linarith
  have nV2 := div_ln2 nV
  generalize S * log2PP S = V at *
  have ln0 : 0 < log 2 := by linarith [hlo.1]
  have n3' : a ≤ |log (1 + S) / log 2| := by
    rw [abs_div, abs_of_pos ln0, le_div_iff₀ ln0]
    have := mul_le_mul_of_nonneg_left hlo.2 ha0
    have h7 := abs_nonneg (log (1 + S))
    norm_num at this; linarith
  generalize log (1 + S) / log 2 = L at *
  clear_value a
  have nV3 : |V - L| ≤ ru md * (6 / 100 * a) := nV2.trans (by rw [mul_assoc]; exact mul_le_mul_of_nonneg_left (by linarith) hu.le)
  have bV := abs_near nV3 (le_refl |L|)
  refine (abs_tri eres nV3).trans ?_
  have h4 := mul_le_mul_of_nonneg_left bV hu.le
  have h5 : ru md * (ru md * (6 / 100 * a)) ≤ ru md * (1 / 10 ^ 9 * a) := by
    refine mul_le_mul_of_nonneg_left ?_ hu.le
    have := mul_le_mul_of_nonneg_right hu2 (show (0 : ℝ) ≤ 6 / 100 * a by positivity)
    norm_num at this ⊢; linarith
  calc _ ≤ ru md * |L| + ru md * (1 / 10 ^ 9 * a) + ru md * (14 / 100 * a) + ru md * (6 / 100 * a) := by linarith
    _ = ru md * (|L| + (1 / 10 ^ 9 * a + 14 / 100 * a + 6 / 100 * a)) := by ring
    _ ≤ _ := mul_le_mul_of_nonneg_left (by norm_num; linarith [abs_nonneg L]) hu.le

/-- the double base-2 kernel: within 9/5 rounding units, relative to the logarithm -/
theorem log2DoubleImpl_err (md : Mode) {x : ℕ} (hx : binary64.Finite x) (h : 0 < binary64.val x) :
    binary64.Finite (CC.log2DoubleImpl md x) ∧
      |binary64.val (CC.log2DoubleImpl md x) - logb 2 (binary64.val x)| ≤ ru md * (9 / 5 * |logb 2 (binary64.val x)|) := by
  obtain ⟨hx0, hx1⟩ := pos_pat64 hx h
  unfold CC.log2DoubleImpl
  have hb : ((x + 2 ^ 64 - 0x3FEEA4AF00000000) % 2 ^ 64 < 0x3FF0B55900000000 - 0x3FEEA4AF00000000) ↔ (0x3FEEA4AF00000000 ≤ x ∧ x < 0x3FF0B55900000000) := by omega
  by_cases hn : 0x3FEEA4AF00000000 ≤ x ∧ x < 0x3FF0B55900000000
  · rw [if_pos (hb.2 hn)]
    by_cases h1 : x = 0x3FF0000000000000
    · rw [if_pos h1, h1, fval_one64.2, logb_one]
      have f0 : binary64.Finite 0 := by decide +kernel
      have v0 : binary64.val 0 = 0 := (binary64.val_eq_zero_iff _).2 (by decide +kernel)
      rw [v0]
      exact ⟨f0, by simp⟩
    · rw [if_neg h1]
      exact log2Near_err md hn.1 hn.2 h1
  · rw [if_neg (fun h => hn (hb.1 h))]
    suffices S : _ from ⟨(log2Main_err md hx h S).1, (log2Main_err md hx h S).2.1⟩
    have hlo := log2_lo
    have ln0 : 0 < log 2 := by linarith [hlo.1]
    rw [show logb 2 (binary64.val x) = log (binary64.val x) / log 2 from rfl, abs_div, abs_of_pos ln0, le_div_iff₀ ln0]
    rcases not_and_or.1 hn with h1 | h1
    · have := pat_le (show x ≤ 0x3FEEA4AF00000000 by omega) (by norm_num)
      have q := pat64 (P := 0x3FEEA4AF00000000) (by norm_num) (by norm_num)
      rw [q.2] at this
      norm_num at this
      have l := log_le_sub_one_of_pos h
      rw [abs_of_nonpos (by linarith)]
      linarith [hlo.2]
    · have := pat_le (show 0x3FF0B55900000000 ≤ x by omega) (by omega)
      have q := pat64 (P := 0x3FF0B55900000000) (by norm_num) (by norm_num)
      rw [q.2] at this
      norm_num at this
      have l := one_sub_inv_le_log_of_pos h
      have l2 := inv_anti₀ (by norm_num) this
      norm_num at l2
      rw [abs_of_nonneg (by linarith)]
      linarith [hlo.2]

end Verif
