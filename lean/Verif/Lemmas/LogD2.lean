import Verif.Lemmas.LogD1

/-!
# The table branch of the double logarithm: rounding errors of the evaluation
-/

namespace Verif
open Fmt Real

/-- the correction term and polynomial (everything but `hi`) of the table branch, in terms of `w` and `r` -/
theorem log_q (md : Mode) {w r kd : ℕ} (hw : binary64.Finite w) (hr : binary64.Finite r) (hkd : binary64.Finite kd) (bw : |binary64.val w| ≤ 765)
    (br : |binary64.val r| ≤ 3893 / 10 ^ 6) (bk : |binary64.val kd| ≤ 1100) :
    let mul := binary64.hmul md
    let add := binary64.hadd md
    let sub := binary64.hsub md
    let hi := add w r
    let lo := add (add (sub w hi) r) (mul kd CC.logLn2lo)
    let r2 := mul r r
    let res := add (add (add lo (mul r2 CC.logA0)) (mul (mul r r2) (add (add CC.logA1 (mul r CC.logA2)) (mul r2 (add CC.logA3 (mul r CC.logA4)))))) hi
    let V := binary64.val w + binary64.val kd * (544487923021427 / 2 ^ 93) + binary64.val r * logPA (binary64.val r)
    binary64.Finite res ∧ |binary64.val res - V| ≤ ru md * (|V| + 3932 / 10 ^ 6) := by
  have hu := ru_pos md
  have hu1 := ru_ge md
  have hu2 := ru_le md
  obtain ⟨fA0, vA0⟩ := val_logA0
  obtain ⟨fA1, vA1⟩ := val_logA1
  obtain ⟨fA2, vA2⟩ := val_logA2
  obtain ⟨fA3, vA3⟩ := val_logA3
  obtain ⟨fA4, vA4⟩ := val_logA4
  obtain ⟨fL, vL⟩ := val_logLn2lo
  dsimp only
  -- hi
  have bwr : |binary64.val w + binary64.val r| ≤ 766 := (abs_add_le' bw br).trans (by norm_num)
  obtain ⟨fhi, ehi⟩ := st_add md hw hr bwr (by norm_num)
  have ehi' : |binary64.val (binary64.hadd md w r) - (binary64.val w + binary64.val r)| ≤ 1 / 10 ^ 12 := by
    refine ehi.trans ?_
    have := mul_le_mul_of_nonneg_right hu2 (show (0 : ℝ) ≤ 766 + 1 / 2 ^ 140 by positivity)
    norm_num at this ⊢; linarith
  clear ehi
  generalize binary64.hadd md w r = hi at *
  set W := binary64.val w with hW
  set R := binary64.val r with hR
  set H := binary64.val hi with hH
  set K := binary64.val kd with hK
  have Aw : Ap md w W 765 0 := Ap.exact hw bw
  have Ah : Ap md hi H 767 0 := Ap.exact fhi ((abs_near ehi' bwr).trans (by norm_num))
  have Ar : Ap md r R (3893 / 10 ^ 6) 0 := Ap.exact hr br
  have Ak : Ap md kd K 1100 0 := Ap.exact hkd bk
  have ehn : |-(H - (W + R))| ≤ 1 / 10 ^ 12 := by rw [abs_neg]; exact ehi'
  have brn : |-R| ≤ 3893 / 10 ^ 6 := by rw [abs_neg]; exact br
  have As1 := Aw.sub Ah (S := 3894 / 10 ^ 6) (B := 3894 / 10 ^ 6) (e := 3895 / 10 ^ 6)
    (by rw [show W - H = -(H - (W + R)) + -R by ring]
        refine (abs_add_le' ehn brn).trans (by norm_num)) le_rfl (by norm_num) (by norm_num)
  have As2 := As1.add Ar (S := 1 / 10 ^ 12) (B := 1 / 10 ^ 12) (e := 3896 / 10 ^ 6)
    (by rw [show W - H + R = -(H - (W + R)) by ring, abs_neg]; exact ehi') le_rfl (by norm_num) (by norm_num)
  have AL : Ap md CC.logLn2lo (544487923021427 / 2 ^ 93) (55 / 10 ^ 15) 0 := Ap.ofVal fL vL (by rw [abs_le]; constructor <;> norm_num)
  have At := Ak.mul AL (B := 1 / 10 ^ 10) (e := 2 / 10 ^ 10) (by norm_num) (by norm_num) (by norm_num)
  have Alo := As2.add At (S := 2 / 10 ^ 10) (B := 2 / 10 ^ 10) (e := 3897 / 10 ^ 6) ((abs_add_le' As2.bd At.bd).trans (by norm_num)) le_rfl (by norm_num) (by norm_num)
  have Ar2 := Ar.mul Ar (B := 1516 / 10 ^ 8) (e := 1517 / 10 ^ 8) (by norm_num) (by norm_num) (by norm_num)
  have AA0 : Ap md CC.logA0 (-4503599627370497 / 2 ^ 53) (501 / 1000) 0 := Ap.ofVal fA0 vA0 (by rw [abs_le]; constructor <;> norm_num)
  have AA1 : Ap md CC.logA1 _ (334 / 1000) 0 := Ap.ofVal fA1 vA1 (by rw [abs_le]; constructor <;> norm_num)
  have AA2 : Ap md CC.logA2 _ (251 / 1000) 0 := Ap.ofVal fA2 vA2 (by rw [abs_le]; constructor <;> norm_num)
  have AA3 : Ap md CC.logA3 _ (201 / 1000) 0 := Ap.ofVal fA3 vA3 (by rw [abs_le]; constructor <;> norm_num)
  have AA4 : Ap md CC.logA4 _ (168 / 1000) 0 := Ap.ofVal fA4 vA4 (by rw [abs_le]; constructor <;> norm_num)
  have Am0 := Ar2.mul AA0 (B := 76 / 10 ^ 7) (e := 153 / 10 ^ 7) (by norm_num) (by norm_num) (by norm_num)
  have Au1 := Alo.add Am0 (S := 77 / 10 ^ 7) (B := 77 / 10 ^ 7) (e := 3921 / 10 ^ 6) ((abs_add_le' Alo.bd Am0.bd).trans (by norm_num)) le_rfl (by norm_num) (by norm_num)
  have Ar3 := Ar.mul Ar2 (B := 591 / 10 ^ 10) (e := 12 / 10 ^ 8) (by norm_num) (by norm_num) (by norm_num)
  have Ap2 := Ar.mul AA2 (B := 1 / 1000) (e := 1 / 1000) (by norm_num) (by norm_num) (by norm_num)
  have Aq1 := AA1.add Ap2 (S := 34 / 100) (B := 34 / 100) (e := 4 / 10) ((abs_add_le' AA1.bd Ap2.bd).trans (by norm_num)) le_rfl (by norm_num) (by norm_num)
  have Ap4 := Ar.mul AA4 (B := 1 / 1000) (e := 1 / 1000) (by norm_num) (by norm_num) (by norm_num)
  have Aq2 := AA3.add Ap4 (S := 21 / 100) (B := 21 / 100) (e := 3 / 10) ((abs_add_le' AA3.bd Ap4.bd).trans (by norm_num)) le_rfl (by norm_num) (by norm_num)
  have Aq3 := Ar2.mul Aq2 (B := 1 / 10 ^ 5) (e := 2 / 10 ^ 5) (by norm_num) (by norm_num) (by norm_num)
  have Aq4 := Aq1.add Aq3 (S := 35 / 100) (B := 35 / 100) (e := 8 / 10) ((abs_add_le' Aq1.bd Aq3.bd).trans (by norm_num)) le_rfl (by norm_num) (by norm_num)
  have Aq5 := Ar3.mul Aq4 (B := 3 / 10 ^ 8) (e := 15 / 10 ^ 8) (by norm_num) (by norm_num) (by norm_num)
  have Aq := Au1.add Aq5 (S := 78 / 10 ^ 7) (B := 78 / 10 ^ 7) (e := 3930 / 10 ^ 6) ((abs_add_le' Au1.bd Aq5.bd).trans (by norm_num)) le_rfl (by norm_num) (by norm_num)
  obtain ⟨fq, eq, bq⟩ := Aq
  clear Au1 Aq5 Aq4 Aq3 Aq2 Aq1 Ap2 Ap4 Ar3 Am0 Ar2 Alo At As1 As2
  generalize binary64.hadd md (binary64.hadd md (binary64.hadd md (binary64.hadd md (binary64.hsub md w hi) r) (binary64.hmul md kd CC.logLn2lo))
    (binary64.hmul md (binary64.hmul md r r) CC.logA0)) _ = q at *
  set Q := W - H + R + K * (544487923021427 / 2 ^ 93) + R * R * (-4503599627370497 / 2 ^ 53) + _ with hQ
  have eV : Q + H = W + K * (544487923021427 / 2 ^ 93) + R * logPA R := by
    rw [hQ]; unfold logPA; ring
  rw [← eV]
  clear_value Q
  have bqv := abs_near eq bq
  have b1 : |binary64.val q + H| ≤ 2 ^ 200 := by
    refine (abs_add_le' bqv Ah.bd).trans ?_
    have := mul_le_mul_of_nonneg_right hu2 (show (0 : ℝ) ≤ 3930 / 10 ^ 6 by positivity)
    norm_num at this ⊢; linarith
  obtain ⟨fr, er⟩ := add64_err md fq fhi b1
  refine ⟨fr, ?_⟩
  have e2 : |binary64.val q + H - (Q + H)| ≤ ru md * (3930 / 10 ^ 6) := by
    rw [show binary64.val q + H - (Q + H) = binary64.val q - Q by ring]; exact eq
  have e3 := abs_near e2 (le_refl |Q + H|)
  refine (abs_tri er e2).trans ?_
  have e4 := mul_le_mul_of_nonneg_left e3 hu.le
  have e5 : eta ≤ ru md * (1 / 10 ^ 9) := by
    have h1 := eta_le
    have h2 := mul_le_mul_of_nonneg_right hu1 (show (0 : ℝ) ≤ 1 / 10 ^ 9 by positivity)
    have h3 : (1 : ℝ) / 2 ^ 200 ≤ 1 / 2 ^ 53 * (1 / 10 ^ 9) := by norm_num
    linarith
  have e6 : ru md * (ru md * (3930 / 10 ^ 6)) ≤ ru md * (1 / 10 ^ 9) := by
    refine mul_le_mul_of_nonneg_left ?_ hu.le
    have := mul_le_mul_of_nonneg_right hu2 (show (0 : ℝ) ≤ 3930 / 10 ^ 6 by positivity)
    norm_num at this ⊢; linarith
  calc _ ≤ ru md * |Q + H| + ru md * (1 / 10 ^ 9) + ru md * (1 / 10 ^ 9) + ru md * (3930 / 10 ^ 6) := by linarith
    _ = ru md * (|Q + H| + (1 / 10 ^ 9 + 1 / 10 ^ 9 + 3930 / 10 ^ 6)) := by ring
    _ ≤ _ := mul_le_mul_of_nonneg_left (by norm_num) hu.le

end Verif
