import Verif.Lemmas.LogTabF
import Verif.Lemmas.LogPolyF
import Verif.Lemmas.LogC
import Verif.Lemmas.LogD1
import Verif.Lemmas.Ap
import Verif.Lemmas.SinCosF4
import Verif.Lemmas.ExpF2

/-!
# The float logarithms: evaluation of the polynomial and facts about the reduced argument
-/

namespace Verif
open Fmt Real

/-- double rounding errors of the float `log`, away from 1 -/
theorem logf_q (md : Mode) {l kd r : ℕ} (fl : binary64.Finite l) (fk : binary64.Finite kd) (fr : binary64.Finite r) {a : ℝ} (ha0 : 0 ≤ a) (ha : a ≤ 200)
    (bl : |binary64.val l| ≤ 1) (bk : |binary64.val kd| ≤ a) (br : |binary64.val r| ≤ 1 / 31) :
    let mul := binary64.hmul md
    let add := binary64.hadd md
    let r2 := mul r r
    Ap md (add (mul (add (mul CC.logAf0 r2) (add (mul CC.logAf1 r) CC.logAf2)) r2) (add (add l (mul kd CC.logLn2f)) r))
      (binary64.val l + binary64.val kd * (6243314768165359 / 2 ^ 53) + binary64.val r * logPF (binary64.val r)) (2 + a) (8 + 4 * a) := by
  intro mul add r2
  have R : Ap md r (binary64.val r) (1 / 31) 0 := Ap.exact fr br
  have A0 : Ap md CC.logAf0 _ (1 / 3) 0 := Ap.ofVal val_logAf0.1 val_logAf0.2 (by rw [abs_le]; constructor <;> norm_num)
  have A1 : Ap md CC.logAf1 _ (2 / 5) 0 := Ap.ofVal val_logAf1.1 val_logAf1.2 (by rw [abs_le]; constructor <;> norm_num)
  have A2 : Ap md CC.logAf2 _ (1 / 2) 0 := Ap.ofVal val_logAf2.1 val_logAf2.2 (by rw [abs_le]; constructor <;> norm_num)
  have N : Ap md CC.logLn2f _ (7 / 10) 0 := Ap.ofVal val_logLn2f.1 val_logLn2f.2 (by rw [abs_le]; constructor <;> norm_num)
  have Lc : Ap md l (binary64.val l) 1 0 := Ap.exact fl bl
  have K : Ap md kd (binary64.val kd) a 0 := Ap.exact fk bk
  have R2 : Ap md r2 _ (1 / 900) (1 / 800) := R.mul R (by norm_num) (by norm_num) (by norm_num)
  have T1 := A1.mul R (B := 1 / 70) (e := 1 / 60) (by norm_num) (by norm_num) (by norm_num)
  have T2 := T1.add A2 (S := 6 / 10) (B := 6 / 10) (e := 1) ((abs_add_le' T1.bd A2.bd).trans (by norm_num)) le_rfl (by norm_num) (by norm_num)
  have T3 := A0.mul R2 (B := 1 / 2000) (e := 1 / 800) (by norm_num) (by norm_num) (by norm_num)
  have T4 := T3.add T2 (S := 7 / 10) (B := 7 / 10) (e := 2) ((abs_add_le' T3.bd T2.bd).trans (by norm_num)) le_rfl (by norm_num) (by norm_num)
  have T5 := T4.mul R2 (B := 1 / 1000) (e := 1 / 100) (by norm_num) (by norm_num) (by norm_num)
  have T6 := K.mul N (B := 7 / 10 * a) (e := 7 / 10 * a + 1 / 2 ^ 100) (by linarith) (by norm_num; linarith) (by norm_num; linarith)
  have T7 := Lc.add T6 (S := 1 + 7 / 10 * a) (B := 1 + 7 / 10 * a) (e := 3 / 2 + 2 * a) (abs_add_le' Lc.bd T6.bd) le_rfl (by norm_num; linarith) (by norm_num; linarith)
  have T8 := T7.add R (S := 11 / 10 + 7 / 10 * a) (B := 11 / 10 + 7 / 10 * a) (e := 3 + 3 * a) ((abs_add_le' T7.bd R.bd).trans (by linarith)) le_rfl (by norm_num; linarith) (by norm_num; linarith)
  have T9 := T5.add T8 (S := 12 / 10 + 7 / 10 * a) (B := 2 + a) (e := 8 + 4 * a) ((abs_add_le' T5.bd T8.bd).trans (by linarith)) (by linarith) (by norm_num; linarith) (by norm_num; linarith)
  refine T9.congr ?_
  unfold logPF
  ring

/-- double rounding errors of the float `log` near 1, relative to `r` -/
theorem logf_q_near (md : Mode) {y0 r : ℕ} (f0 : binary64.Finite y0) (v0 : binary64.val y0 = 0) (fr : binary64.Finite r) {a : ℝ} (ha0 : 1 / 2 ^ 24 ≤ a) (ha : a ≤ 1 / 40)
    (br : |binary64.val r| ≤ a) :
    let mul := binary64.hmul md
    let add := binary64.hadd md
    let r2 := mul r r
    Ap md (add (mul (add (mul CC.logAf0 r2) (add (mul CC.logAf1 r) CC.logAf2)) r2) (add y0 r)) (binary64.val r * logPF (binary64.val r)) (2 * a) (4 * a) := by
  intro mul add r2
  norm_num at ha0
  have br' : |binary64.val r| ≤ 1 / 40 := br.trans ha
  have R : Ap md r (binary64.val r) (1 / 40) 0 := Ap.exact fr br'
  have Ra : Ap md r (binary64.val r) a 0 := Ap.exact fr br
  have A0 : Ap md CC.logAf0 _ (1 / 3) 0 := Ap.ofVal val_logAf0.1 val_logAf0.2 (by rw [abs_le]; constructor <;> norm_num)
  have A1 : Ap md CC.logAf1 _ (2 / 5) 0 := Ap.ofVal val_logAf1.1 val_logAf1.2 (by rw [abs_le]; constructor <;> norm_num)
  have A2 : Ap md CC.logAf2 _ (1 / 2) 0 := Ap.ofVal val_logAf2.1 val_logAf2.2 (by rw [abs_le]; constructor <;> norm_num)
  have Z : Ap md y0 0 0 0 := Ap.ofVal f0 v0 (by simp)
  have R2 : Ap md r2 _ (1 / 900) (1 / 800) := R.mul R (by norm_num) (by norm_num) (by norm_num)
  have R2a : Ap md r2 _ (1 / 40 * a) (1 / 20 * a) := R.mul Ra (by linarith) (by norm_num; linarith) (by norm_num; linarith)
  have T1 := A1.mul R (B := 1 / 70) (e := 1 / 60) (by norm_num) (by norm_num) (by norm_num)
  have T2 := T1.add A2 (S := 6 / 10) (B := 6 / 10) (e := 1) ((abs_add_le' T1.bd A2.bd).trans (by norm_num)) le_rfl (by norm_num) (by norm_num)
  have T3 := A0.mul R2 (B := 1 / 2000) (e := 1 / 800) (by norm_num) (by norm_num) (by norm_num)
  have T4 := T3.add T2 (S := 7 / 10) (B := 7 / 10) (e := 2) ((abs_add_le' T3.bd T2.bd).trans (by norm_num)) le_rfl (by norm_num) (by norm_num)
  have T5 := T4.mul R2a (B := 1 / 20 * a) (e := 1 / 5 * a) (by linarith) (by norm_num; linarith) (by norm_num; linarith)
  have T8 := Z.add Ra (S := a) (B := a) (e := 11 / 10 * a) ((abs_add_le' Z.bd Ra.bd).trans (by linarith)) le_rfl (by norm_num; linarith) (by norm_num; linarith)
  have T9 := T5.add T8 (S := 11 / 10 * a) (B := 2 * a) (e := 4 * a) ((abs_add_le' T5.bd T8.bd).trans (by linarith)) (by linarith) (by norm_num; linarith) (by norm_num; linarith)
  refine T9.congr ?_
  unfold logPF
  ring

/-- the logarithm of the argument, from the subinterval of its significand -/
theorem logf_L {d : ℕ} (hd : d < 2 ^ 23) (k : ℤ) {z I : ℝ} (hz : z = zint (0x3f330000 + d) / 2 ^ 24) (hI0 : 0 < I) (hI : d / 2 ^ 19 = 10 → I ≤ 9495 / 10000)
    (h8 : d / 2 ^ 19 ≤ 8 → z * I - 1 ≤ 1 / 41) (h9 : ¬(d / 2 ^ 19 = 9 ∧ k = 0)) :
    195 / 10000 ≤ |k * log 2 + log z| ∧ |(k : ℝ)| / 4 ≤ |k * log 2 + log z| ∧ (1 / 41 < z * I - 1 → 758 / 10000 ≤ |k * log 2 + log z|) ∧
      |k * log 2 + log z| ≤ |(k : ℝ)| * (7 / 10) + 1 / 2 := by
  have lo : ∀ P, P ≤ 0x3f330000 + d → 126 * 2 ^ 23 ≤ P → (zint P : ℝ) / 2 ^ 24 ≤ z := by
    intro P h1 h2
    rw [hz]
    have : (zint P : ℝ) ≤ zint (0x3f330000 + d) := by exact_mod_cast zint_mono h1 h2 (by omega)
    exact div_le_div_of_nonneg_right this (by positivity)
  have hi : ∀ P, 0x3f330000 + d ≤ P → P < 128 * 2 ^ 23 → z ≤ (zint P : ℝ) / 2 ^ 24 := by
    intro P h1 h2
    rw [hz]
    have : (zint (0x3f330000 + d) : ℝ) ≤ zint P := by exact_mod_cast zint_mono h1 (by omega) h2
    exact div_le_div_of_nonneg_right this (by positivity)
  have z1 : 69921875 / 100000000 ≤ z := by
    have := lo 0x3f330000 (by omega) (by norm_num)
    rw [show zint 0x3f330000 = 11730944 from by decide +kernel] at this
    norm_num at this ⊢; exact this
  have z2 : z ≤ 13984375 / 10000000 := by
    have := hi (0x3f330000 + 2 ^ 23) (by omega) (by norm_num)
    rw [show zint (0x3f330000 + 2 ^ 23) = 23461888 from by decide +kernel] at this
    norm_num at this ⊢; exact this
  have z0 : 0 < z := lt_of_lt_of_le (by norm_num) z1
  have l1 : -(43022347 / 100000000) ≤ log z := by
    have h1 := Real.one_sub_inv_le_log_of_pos z0
    have h2 : z⁻¹ ≤ 143022347 / 100000000 := by
      rw [inv_le_comm₀ z0 (by norm_num)]; refine le_trans ?_ z1; norm_num
    linarith
  have l2 : log z ≤ 3984375 / 10000000 := by
    have := Real.log_le_sub_one_of_pos z0; linarith
  obtain ⟨b1, b2⟩ := ln2_bounds
  have c1 : (693 / 1000 : ℝ) ≤ log 2 := le_trans (by norm_num) b1
  have up : |k * log 2 + log z| ≤ |(k : ℝ)| * (7 / 10) + 1 / 2 := by
    refine abs_add_le' (abs_mul_le le_rfl ?_) ?_
    · rw [abs_of_pos (by linarith)]; exact b2.trans (by norm_num)
    · rw [abs_le]; constructor <;> linarith
  refine and_assoc.1 (and_assoc.1 ⟨?_, up⟩) |> fun h => ⟨h.1, h.2⟩
  rw [and_assoc]
  clear up
  by_cases hk : k = 0
  · subst hk
    have h9' : d / 2 ^ 19 ≠ 9 := fun h => h9 ⟨h, rfl⟩
    simp only [Int.cast_zero, zero_mul, zero_add, abs_zero, zero_div]
    refine ⟨?_, abs_nonneg _, ?_⟩
    · rcases lt_or_gt_of_ne h9' with h | h
      · have hz1 := hi (0x3f330000 + 9 * 2 ^ 19) (by omega) (by norm_num)
        rw [show zint (0x3f330000 + 9 * 2 ^ 19) = 16449536 from by decide +kernel] at hz1
        have := Real.log_le_sub_one_of_pos z0
        rw [abs_of_nonpos (by norm_num at hz1; linarith)]
        norm_num at hz1; linarith
      · have hz1 := lo (0x3f330000 + 10 * 2 ^ 19) (by omega) (by norm_num)
        rw [show zint (0x3f330000 + 10 * 2 ^ 19) = 17170432 from by decide +kernel] at hz1
        norm_num at hz1
        have h1 := Real.one_sub_inv_le_log_of_pos z0
        have h2 : z⁻¹ ≤ 98 / 100 := by
          rw [inv_le_comm₀ z0 (by norm_num)]; refine le_trans ?_ hz1; norm_num
        refine le_trans ?_ (le_abs_self _)
        linarith
    · intro hr
      have hz1 : 10788 / 10000 ≤ z := by
        by_cases h10 : d / 2 ^ 19 = 10
        · have h1 := hI h10
          have h2 : 42 / 41 < z * I := by linarith
          have h3 := mul_le_mul_of_nonneg_left h1 z0.le
          linarith
        · have h11 : 11 ≤ d / 2 ^ 19 := by
            by_contra hc
            have := h8 (by omega)
            linarith
          have hz1 := lo (0x3f330000 + 11 * 2 ^ 19) (by omega) (by norm_num)
          rw [show zint (0x3f330000 + 11 * 2 ^ 19) = 18219008 from by decide +kernel] at hz1
          norm_num at hz1; linarith
      have := Real.le_log_one_add_of_nonneg (x := z - 1) (by linarith)
      rw [show 1 + (z - 1) = z by ring, show z - 1 + 2 = z + 1 by ring] at this
      have h2 : 758 / 10000 ≤ 2 * (z - 1) / (z + 1) := by rw [le_div_iff₀ (by linarith)]; linarith
      exact (h2.trans this).trans (le_abs_self _)
  · have key : |(k : ℝ)| / 4 ≤ |k * log 2 + log z| := by
      rcases lt_or_gt_of_ne hk with h | h
      · have hk1 : (k : ℝ) ≤ -1 := by exact_mod_cast (show k ≤ -1 by omega)
        have h2 : (k : ℝ) * log 2 ≤ k * (693 / 1000) := mul_le_mul_of_nonpos_left c1 (by linarith)
        rw [abs_of_neg (by linarith), abs_of_nonpos (by linarith)]; linarith
      · have hk1 : (1 : ℝ) ≤ k := by exact_mod_cast (show 1 ≤ k by omega)
        have h2 : (k : ℝ) * (693 / 1000) ≤ k * log 2 := mul_le_mul_of_nonneg_left c1 (by linarith)
        rw [abs_of_pos (by linarith), abs_of_nonneg (by linarith)]; linarith
    have hk1 : (1 : ℝ) ≤ |(k : ℝ)| := by
      rw [← Int.cast_abs]; exact_mod_cast Int.one_le_abs hk
    exact ⟨by linarith, key, fun _ => by linarith⟩

/-- the last rounding, from double to float -/
theorem logf_final {md : Mode} {y : ℕ} {L : ℝ} (fy : binary64.Finite y) (hL1 : 1 / 2 ^ 30 ≤ |L|) (hL2 : |L| ≤ 200) (h : |binary64.val y - L| ≤ 615 / 1000 / 2 ^ 24 * |L|) :
    binary32.Finite (binary32.hcvt binary64 md y) ∧ |binary32.val (binary32.hcvt binary64 md y) - L| ≤ ruf md * (13 / 8 * |L|) := by
  have R := CC.hcvt_spec binary32 binary64 md fy
  have hy : |binary64.val y| ≤ |L| * (1 + 1 / 2 ^ 24) := by
    have := abs_near h (le_refl |L|)
    refine this.trans ?_
    norm_num; linarith
  obtain ⟨f, e⟩ := err32 R (hy.trans (by norm_num; linarith))
  refine ⟨f, ?_⟩
  have hη := etaf_le
  have hu := ruf_pos md
  have hu1 := ruf_ge md
  have t : |binary32.val (binary32.hcvt binary64 md y) - L| ≤ (ruf md * |binary64.val y| + etaf) + 615 / 1000 / 2 ^ 24 * |L| := abs_tri e h
  refine t.trans ?_
  have h1 := mul_le_mul_of_nonneg_left hy hu.le
  have h2 := mul_le_mul_of_nonneg_right hu1 (show 0 ≤ 616 / 1000 * |L| by positivity)
  have h3 : (1 : ℝ) / 2 ^ 100 ≤ 1 / 2 ^ 24 * (1 / 1000 * |L|) := by norm_num at hL1 ⊢; linarith
  have h4 : ruf md * (13 / 8 * |L|) = ruf md * (|L| * (1 + 1 / 2 ^ 24)) + ruf md * (616 / 1000 * |L|) + ruf md * |L| * (9 / 1000 - 1 / 2 ^ 24) := by ring
  have h5 : 0 ≤ ruf md * |L| * (9 / 1000 - 1 / 2 ^ 24) := by
    have : (0 : ℝ) ≤ 9 / 1000 - 1 / 2 ^ 24 := by norm_num
    positivity
  rw [h4]
  linarith

end Verif
