import Verif.Lemmas.LogD3

/-!
# The double logarithm: assembly of the two branches
-/

namespace Verif
open Fmt Real

theorem pat_le {P Q : ℕ} (h : P ≤ Q) (hQ : Q < 2 ^ 63) : binary64.val P ≤ binary64.val Q := by
  have key : ∀ P < 2 ^ 63, binary64.key P = P := by
    intro P hP
    have h1 : binary64.sgn P = false := by
      rw [show binary64.sgn P = decide (2 ^ 63 ≤ P) from rfl]; simpa using hP
    have h2 : binary64.mag P = P := by
      rw [show binary64.mag P = P % 2 ^ 63 from rfl]; exact Nat.mod_eq_of_lt hP
    unfold Fmt.key
    rw [h1, h2]; rfl
  rw [Fmt.val_le_iff_key, key P (by omega), key Q hQ]
  exact_mod_cast h

/-- the significand `z` of the reduction is a multiple of `2^-53` -/
theorem z_mult {d : ℕ} (hd : d < 2 ^ 52) : Mult (-53) (binary64.val (0x3fe6000000000000 + d)) := by
  have p := pat64 (P := 0x3fe6000000000000 + d) (by omega) (by omega)
  rw [p.2]
  have h1 : (0x3fe6000000000000 + d) / 2 ^ 52 = 1022 ∨ (0x3fe6000000000000 + d) / 2 ^ 52 = 1023 := by omega
  rcases h1 with h1 | h1 <;> rw [h1]
  · refine ⟨((2 ^ 52 + (0x3fe6000000000000 + d) % 2 ^ 52 : ℕ) : ℤ), ?_⟩
    generalize (2 ^ 52 + (0x3fe6000000000000 + d) % 2 ^ 52) = n
    push_cast
    norm_num
  · refine ⟨2 * ((2 ^ 52 + (0x3fe6000000000000 + d) % 2 ^ 52 : ℕ) : ℤ), ?_⟩
    generalize (2 ^ 52 + (0x3fe6000000000000 + d) % 2 ^ 52) = n
    push_cast
    norm_num
    ring

theorem logMain_err (md : Mode) {x : ℕ} (hx : binary64.Finite x) (h : 0 < binary64.val x) (hL : 1 / 17 ≤ |log (binary64.val x)|) :
    binary64.Finite (CC.logMain md (CC.logNorm md x)) ∧
      |binary64.val (CC.logMain md (CC.logNorm md x)) - log (binary64.val x)| ≤ ru md * (5 / 4 * |log (binary64.val x)|) := by
  obtain ⟨k, d, hd, hk1, hk2, hr, hzf, hxz, -⟩ := red64 md hx h
  dsimp only at hr
  obtain ⟨hr1, -, hr3, hr4⟩ := hr
  unfold CC.logMain
  dsimp only
  rw [hr1, hr3, hr4]
  obtain ⟨i, hi⟩ : ∃ i, i = d / 2 ^ 45 := ⟨_, rfl⟩
  have hi128 : i < 128 := by omega
  rw [← hi]
  have tab := logTabOk_spec (logTab_ok i hi128) (by norm_num)
  obtain ⟨fi, fl, fc, fcl, hc1, hc2, hic, mlc, bcl, mch, blc, elc, hz⟩ := tab
  have hzc := hz (binary64.val (0x3fe6000000000000 + d)) (pat_le (by omega) (by omega)) (pat_le (by omega) (by omega))
  have mz := z_mult hd
  generalize 0x3fe6000000000000 + d = z at *
  clear hz hr1 hr3 hr4
  generalize CC.logInvc.getD i 0 = ic at *
  generalize CC.logLogc.getD i 0 = lc at *
  generalize CC.logChi.getD i 0 = ch at *
  generalize CC.logClo.getD i 0 = cl at *
  obtain ⟨c, hc⟩ : ∃ c, binary64.val ch + binary64.val cl = c := ⟨_, rfl⟩
  rw [hc] at hc1 hc2 hic elc hzc
  simp only [Nat.cast_one, div_one, mul_one] at blc elc
  have hc0 : 0 < c := by linarith
  obtain ⟨fr, er, bR⟩ := log_r md hzf fc fcl fi mz mch hc hc1 hc2 bcl hic (ρ := (3892 : ℕ) / 10 ^ 6) (by norm_num) (by norm_num) hzc
  generalize binary64.hmul md (binary64.hsub md (binary64.hsub md z ch) cl) ic = r at *
  have hu := ru_pos md
  have hu1 := ru_ge md
  have hu2 := ru_le md
  obtain ⟨fk, vk⟩ := ofInt_ex64 md (z := k) (by rw [abs_le]; constructor <;> omega)
  generalize binary64.ofInt md k = kd at *
  obtain ⟨fh, vh⟩ := val_logLn2hi
  have hkr : |(k : ℝ)| ≤ 1100 := by rw [abs_le]; constructor <;> [(have : (-1100 : ℤ) ≤ k := by omega); skip] <;> exact_mod_cast by omega
  obtain ⟨fw1, vw1⟩ := ex64 (-42) (binary64.hmul_spec md fk fh) ⟨k * 3048493539143, by rw [vk, vh]; push_cast; norm_num; ring⟩ (by norm_num)
    (by rw [vk, vh, abs_mul]
        refine (mul_le_mul hkr (show |(3048493539143 / 2 ^ 42 : ℝ)| ≤ 7 / 10 by rw [abs_le]; constructor <;> norm_num) (abs_nonneg _) (by norm_num)).trans (by norm_num))
    (by rw [vk, vh, abs_mul]
        refine (mul_le_mul hkr (show |(3048493539143 / 2 ^ 42 : ℝ)| ≤ 7 / 10 by rw [abs_le]; constructor <;> norm_num) (abs_nonneg _) (by norm_num)).trans (by norm_num))
  rw [vk, vh] at vw1
  generalize binary64.hmul md kd CC.logLn2hi = w1 at *
  have b1 : |(k : ℝ) * (3048493539143 / 2 ^ 42)| ≤ 763 := by
    rw [abs_mul]
    refine (mul_le_mul hkr (show |(3048493539143 / 2 ^ 42 : ℝ)| ≤ 6932 / 10000 by rw [abs_le]; constructor <;> norm_num) (abs_nonneg _) (by norm_num)).trans (by norm_num)
  have mw : Mult (-43) (binary64.val w1 + binary64.val lc) := by
    refine Mult.add ⟨2 * k * 3048493539143, ?_⟩ mlc
    rw [vw1]; push_cast; norm_num; ring
  have bw : |binary64.val w1 + binary64.val lc| ≤ 765 := by
    rw [vw1]; exact (abs_add_le' b1 blc).trans (by norm_num)
  obtain ⟨fw, vw⟩ := ex64 (-43) (binary64.hadd_spec md fw1 fl) mw (by norm_num) (bw.trans (by norm_num)) (bw.trans (by norm_num))
  rw [← vw] at bw
  rw [vw1] at vw
  generalize binary64.hadd md w1 lc = w at *
  set R' := (binary64.val z - c) / c with hR'
  norm_num at er bR
  have er' : |binary64.val r - R'| ≤ ru md * (7785 / 10 ^ 6) := er.trans (mul_le_mul_of_nonneg_left (by norm_num) hu.le)
  have br : |binary64.val r| ≤ 3893 / 10 ^ 6 := by
    refine (abs_near er' bR).trans ?_
    have := mul_le_mul_of_nonneg_right hu2 (show (0 : ℝ) ≤ 7785 / 10 ^ 6 by positivity)
    norm_num at this ⊢; linarith
  obtain ⟨fres, eres⟩ := log_q md fw fr fk bw br (by rw [vk]; exact hkr)
  refine ⟨fres, ?_⟩
  generalize binary64.val (binary64.hadd md _ _) = res at *
  have hlx : log (binary64.val x) = k * log 2 + log (binary64.val z) := by
    rw [hxz, log_mul, log_zpow]
    · ring
    · intro h0; rw [hxz, h0, zero_mul] at h; exact lt_irrefl _ h
    · positivity
  have hlz : log (binary64.val z) = log c + log (1 + R') := by
    rw [← log_mul hc0.ne' (by have := (abs_le.1 bR).1; intro h0; linarith)]
    congr 1
    rw [hR']; field_simp; ring
  set L := log (binary64.val x) with hLdef
  set V := binary64.val w + binary64.val kd * (544487923021427 / 2 ^ 93) + binary64.val r * logPA (binary64.val r) with hV
  -- V against L
  have n1 : |(k : ℝ) * ((3048493539143 / 2 ^ 42 + 544487923021427 / 2 ^ 93) - log 2)| ≤ 1100 * (1 / 2 ^ 90) := abs_mul_le hkr ln2_split
  have n2 : |binary64.val lc - log c| ≤ 101 / 100 / 2 ^ 66 := by rw [abs_sub_comm]; exact elc
  have br2 : |binary64.val r| ≤ 1 / 256 := br.trans (by norm_num)
  have n3 := logPA_near br2
  have n4 := logPAT_near br2
  have n4' : |binary64.val r * logPAT (binary64.val r) - log (1 + binary64.val r)| ≤ 1 / 2 ^ 80 := by
    refine n4.trans ?_
    have := mul_le_mul_of_nonneg_right br2 (show (0 : ℝ) ≤ 11 / 10 / 256 ^ 11 by positivity)
    norm_num at this ⊢; linarith
  have n5 : |log (1 + binary64.val r) - log (1 + R')| ≤ ru md * (7818 / 10 ^ 6) := by
    have := log_lip (a := 1 + binary64.val r) (b := 1 + R') (m := 996 / 1000) (by norm_num) (by have := (abs_le.1 br).1; norm_num at this ⊢; linarith) (by have := (abs_le.1 bR).1; linarith)
    refine this.trans ?_
    rw [show 1 + binary64.val r - (1 + R') = binary64.val r - R' by ring, div_le_iff₀ (by norm_num)]
    refine er'.trans ?_
    rw [mul_assoc]
    exact mul_le_mul_of_nonneg_left (by norm_num) hu.le
  have eVL : V - L = (k : ℝ) * ((3048493539143 / 2 ^ 42 + 544487923021427 / 2 ^ 93) - log 2) + (binary64.val lc - log c) +
      binary64.val r * (logPA (binary64.val r) - logPAT (binary64.val r)) + (binary64.val r * logPAT (binary64.val r) - log (1 + binary64.val r)) +
      (log (1 + binary64.val r) - log (1 + R')) := by
    rw [hV, hlx, hlz, vw, vk]; ring
  have nV : |V - L| ≤ ru md * (9908 / 10 ^ 6) := by
    rw [eVL]
    refine (abs_add_le' (abs_add_le' (abs_add_le' (abs_add_le' n1 n2) n3) n4') n5).trans ?_
    have h1 := mul_le_mul_of_nonneg_right hu1 (show (0 : ℝ) ≤ 2090 / 10 ^ 6 by positivity)
    have h2 : (1100 * (1 / 2 ^ 90) + 101 / 100 / 2 ^ 66 + 2 / 2 ^ 63 + 1 / 2 ^ 80 : ℝ) ≤ 1 / 2 ^ 53 * (2090 / 10 ^ 6) := by norm_num
    have h3 : ru md * (9908 / 10 ^ 6) = ru md * (2090 / 10 ^ 6) + ru md * (7818 / 10 ^ 6) := by ring
    linarith
  clear_value V L
  clear eVL hV n1 n2 n3 n4 n4' n5 hlx hlz
  have bV := abs_near nV (le_refl |L|)
  refine (abs_tri eres nV).trans ?_
  have h4 := mul_le_mul_of_nonneg_left bV hu.le
  have h5 : ru md * (ru md * (9908 / 10 ^ 6)) ≤ ru md * (1 / 10 ^ 9) := by
    refine mul_le_mul_of_nonneg_left ?_ hu.le
    have := mul_le_mul_of_nonneg_right hu2 (show (0 : ℝ) ≤ 9908 / 10 ^ 6 by positivity)
    norm_num at this ⊢; linarith
  calc _ ≤ ru md * |L| + ru md * (1 / 10 ^ 9) + ru md * (3932 / 10 ^ 6) + ru md * (9908 / 10 ^ 6) := by linarith
    _ = ru md * (|L| + (1 / 10 ^ 9 + 3932 / 10 ^ 6 + 9908 / 10 ^ 6)) := by ring
    _ ≤ _ := mul_le_mul_of_nonneg_left (by norm_num; linarith) hu.le

theorem fval_one64 : binary64.Finite 0x3FF0000000000000 ∧ binary64.val 0x3FF0000000000000 = 1 := by
  have h := pat64 (P := 0x3FF0000000000000) (by norm_num) (by norm_num)
  refine ⟨h.1, h.2.trans ?_⟩
  norm_num

theorem log_ge_near {R : ℝ} (h : |R| ≤ 1 / 16) : |R| ≤ 17 / 16 * |log (1 + R)| := by
  have h1 := (abs_le.1 h).1
  have h2 := (abs_le.1 h).2
  rcases le_or_gt 0 R with h3 | h3
  · rw [abs_of_nonneg h3, abs_of_nonneg (log_nonneg (by linarith))]
    have := one_sub_inv_le_log_of_pos (show 0 < 1 + R by linarith)
    have e : 1 - (1 + R)⁻¹ = R / (1 + R) := by field_simp; ring
    rw [e] at this
    have h4 : 16 / 17 * R ≤ R / (1 + R) := by
      rw [le_div_iff₀ (by linarith)]; nlinarith
    linarith
  · rw [abs_of_neg h3, abs_of_nonpos (log_nonpos (by linarith) (by linarith))]
    have := log_le_sub_one_of_pos (show 0 < 1 + R by linarith)
    linarith

theorem logNear_err (md : Mode) {x : ℕ} (h1 : 0x3FEE000000000000 ≤ x) (h2 : x < 0x3FF1000000000000) (hne : x ≠ 0x3FF0000000000000) :
    binary64.Finite (CC.logNear md x) ∧ |binary64.val (CC.logNear md x) - log (binary64.val x)| ≤ ru md * (5 / 4 * |log (binary64.val x)|) := by
  have hu := ru_pos md
  have hu1 := ru_ge md
  have hu2 := ru_le md
  have p := pat64 (P := x) (by omega) (by omega)
  obtain ⟨f1, v1⟩ := fval_one64
  have ml : Mult (-53) (binary64.val x) := by
    have := z_mult (d := x - 0x3fe6000000000000) (by omega)
    rwa [show 0x3fe6000000000000 + (x - 0x3fe6000000000000) = x by omega] at this
  have lo : (15 / 16 : ℝ) ≤ binary64.val x := by
    have := pat_le h1 (by omega)
    have q := pat64 (P := 0x3FEE000000000000) (by norm_num) (by norm_num)
    rw [q.2] at this
    norm_num at this ⊢; exact this
  have hi : binary64.val x ≤ 17 / 16 := by
    have := pat_le h2.le (by norm_num)
    have q := pat64 (P := 0x3FF1000000000000) (by norm_num) (by norm_num)
    rw [q.2] at this
    norm_num at this ⊢; exact this
  have ms : Mult (-53) (binary64.val x - 1) := ml.sub ⟨2 ^ 53, by norm_num⟩
  have bR : |binary64.val x - 1| ≤ 1 / 16 := by rw [abs_le]; constructor <;> linarith
  have R := binary64.hsub_spec md p.1 f1
  rw [v1] at R
  obtain ⟨fr, vr⟩ := ex64 (-53) R ms (by norm_num) (bR.trans (by norm_num)) (bR.trans (by norm_num))
  have hne' : binary64.val x - 1 ≠ 0 := by
    intro h0
    exact hne (pos_inj64 p.1 f1 (by rw [v1]; linarith) (by linarith))
  have lb : 1 / 2 ^ 53 ≤ |binary64.val x - 1| := by
    obtain ⟨m, hm⟩ := ms
    have hm0 : m ≠ 0 := by rintro rfl; rw [hm] at hne'; simp at hne'
    have : (1 : ℝ) ≤ |(m : ℝ)| := by exact_mod_cast Int.one_le_abs hm0
    rw [hm, abs_mul, abs_of_pos (show (0 : ℝ) < 2 ^ (-53 : ℤ) by positivity)]
    have := mul_le_mul_of_nonneg_right this (show (0 : ℝ) ≤ 2 ^ (-53 : ℤ) by positivity)
    rw [one_mul] at this
    refine le_trans ?_ this
    norm_num
  unfold CC.logNear
  dsimp only
  generalize binary64.hsub md x 0x3FF0000000000000 = r at *
  obtain ⟨fres, eres⟩ := logNear_eval md fr (a := |binary64.val x - 1|) (by rw [vr]) lb bR
  refine ⟨fres, ?_⟩
  generalize binary64.val (binary64.hadd md _ _) = res at *
  rw [vr] at eres
  have hx1 : binary64.val x = 1 + (binary64.val x - 1) := by ring
  rw [hx1, show 1 + (binary64.val x - 1) - 1 = binary64.val x - 1 by ring] at *
  generalize binary64.val x - 1 = S at *
  have n1 := logPP_near bR
  have n2 := logPPT_near bR
  have n3 := log_ge_near bR
  set a := |S| with ha
  set L := log (1 + S)
  have nV : |S * logPP S - L| ≤ ru md * (8 / 1000 * a) := by
    have e : S * logPP S - L = S * (logPP S - logPPT S) + (S * logPPT S - L) := by ring
    rw [e]
    have n1' : |S * (logPP S - logPPT S)| ≤ a * (2 / 2 ^ 61) := by
      rw [abs_mul]; exact mul_le_mul_of_nonneg_left n1 (abs_nonneg _)
    refine (abs_add_le' n1' n2).trans ?_
    have h5 := mul_le_mul_of_nonneg_right hu1 (show (0 : ℝ) ≤ 8 / 1000 * a by positivity)
    refine le_trans ?_ h5
    have h6 : a * (2 / 2 ^ 61) + a * (11 / 10 / 16 ^ 18) = a * (2 / 2 ^ 61 + 11 / 10 / 16 ^ 18) := by ring
    have h7 : (1 : ℝ) / 2 ^ 53 * (8 / 1000 * a) = a * (1 / 2 ^ 53 * (8 / 1000)) := by ring
    rw [h6, h7]
    exact mul_le_mul_of_nonneg_left (by norm_num) (abs_nonneg _)
  generalize S * logPP S = V at *
  clear_value L a
  have bV := abs_near nV (le_refl |L|)
  refine (abs_tri eres nV).trans ?_
  have h4 := mul_le_mul_of_nonneg_left bV hu.le
  have h5 : ru md * (ru md * (8 / 1000 * a)) ≤ ru md * (1 / 10 ^ 9 * a) := by
    refine mul_le_mul_of_nonneg_left ?_ hu.le
    have := mul_le_mul_of_nonneg_right hu2 (show (0 : ℝ) ≤ 8 / 1000 * a by norm_num at lb; linarith)
    norm_num at this lb ⊢; linarith
  calc _ ≤ ru md * |L| + ru md * (1 / 10 ^ 9 * a) + ru md * (106 / 1000 * a) + ru md * (8 / 1000 * a) := by linarith
    _ = ru md * (|L| + (1 / 10 ^ 9 * a + 106 / 1000 * a + 8 / 1000 * a)) := by ring
    _ ≤ _ := mul_le_mul_of_nonneg_left (by norm_num; linarith [abs_nonneg L]) hu.le

/-- the double kernel: within 5/4 rounding units of the logarithm, relative to the logarithm -/
theorem logDoubleImpl_err (md : Mode) {x : ℕ} (hx : binary64.Finite x) (h : 0 < binary64.val x) :
    binary64.Finite (CC.logDoubleImpl md x) ∧
      |binary64.val (CC.logDoubleImpl md x) - log (binary64.val x)| ≤ ru md * (5 / 4 * |log (binary64.val x)|) := by
  obtain ⟨hx0, hx1⟩ := pos_pat64 hx h
  unfold CC.logDoubleImpl
  have hb : ((x + 2 ^ 64 - 0x3FEE000000000000) % 2 ^ 64 < 0x3FF1000000000000 - 0x3FEE000000000000) ↔ (0x3FEE000000000000 ≤ x ∧ x < 0x3FF1000000000000) := by omega
  by_cases hn : 0x3FEE000000000000 ≤ x ∧ x < 0x3FF1000000000000
  · rw [if_pos (hb.2 hn)]
    by_cases h1 : x = 0x3FF0000000000000
    · rw [if_pos h1, h1, fval_one64.2, log_one]
      have f0 : binary64.Finite 0 := by decide +kernel
      have v0 : binary64.val 0 = 0 := (binary64.val_eq_zero_iff _).2 (by decide +kernel)
      rw [v0]
      exact ⟨f0, by simp⟩
    · rw [if_neg h1]
      exact logNear_err md hn.1 hn.2 h1
  · rw [if_neg (fun h => hn (hb.1 h))]
    refine logMain_err md hx h ?_
    rcases not_and_or.1 hn with h1 | h1
    · have := pat_le (show x ≤ 0x3FEE000000000000 by omega) (by norm_num)
      have q := pat64 (P := 0x3FEE000000000000) (by norm_num) (by norm_num)
      rw [q.2] at this
      norm_num at this
      have l := log_le_sub_one_of_pos h
      rw [abs_of_nonpos (by linarith)]
      linarith
    · have := pat_le (show 0x3FF1000000000000 ≤ x by omega) (by omega)
      have q := pat64 (P := 0x3FF1000000000000) (by norm_num) (by norm_num)
      rw [q.2] at this
      norm_num at this
      have l := one_sub_inv_le_log_of_pos h
      have l2 : (binary64.val x)⁻¹ ≤ (17 / 16 : ℝ)⁻¹ := inv_anti₀ (by norm_num) this
      norm_num at l2
      rw [abs_of_nonneg (by linarith)]
      linarith

end Verif
