import Verif.Lemmas.Exp10

/-!
# `exp2` for doubles: reduction and polynomial
-/

namespace Verif
open Fmt Real

theorem val_e1 : binary64.val CC.exp2C1 = 0x162E42FEFA39EF / 2 ^ 53 := by
  rw [show CC.exp2C1 = 0x3FE62E42FEFA39EF from rfl, lit64 false 0x162E42FEFA39EF 53 (by decide +kernel) (by decide +kernel) (by decide +kernel) (by decide +kernel)]; norm_num [sg]
theorem val_e2 : binary64.val CC.exp2C2 = 0x1EBFBDFF82C424 / 2 ^ 55 := by
  rw [show CC.exp2C2 = 0x3FCEBFBDFF82C424 from rfl, lit64 false 0x1EBFBDFF82C424 55 (by decide +kernel) (by decide +kernel) (by decide +kernel) (by decide +kernel)]; norm_num [sg]
theorem val_e3 : binary64.val CC.exp2C3 = 0x1C6B08D70CF4B5 / 2 ^ 57 := by
  rw [show CC.exp2C3 = 0x3FAC6B08D70CF4B5 from rfl, lit64 false 0x1C6B08D70CF4B5 57 (by decide +kernel) (by decide +kernel) (by decide +kernel) (by decide +kernel)]; norm_num [sg]
theorem val_e4 : binary64.val CC.exp2C4 = 0x13B2ABD24650CC / 2 ^ 59 := by
  rw [show CC.exp2C4 = 0x3F83B2ABD24650CC from rfl, lit64 false 0x13B2ABD24650CC 59 (by decide +kernel) (by decide +kernel) (by decide +kernel) (by decide +kernel)]; norm_num [sg]
theorem val_e5 : binary64.val CC.exp2C5 = 0x15D7E09B4E3A84 / 2 ^ 62 := by
  rw [show CC.exp2C5 = 0x3F55D7E09B4E3A84 from rfl, lit64 false 0x15D7E09B4E3A84 62 (by decide +kernel) (by decide +kernel) (by decide +kernel) (by decide +kernel)]; norm_num [sg]

/-- the coefficients against the Taylor coefficients of `2^x` -/
theorem exp2_coef : |binary64.val CC.exp2C1 - log 2| ≤ 233 / 10 ^ 19 ∧ |binary64.val CC.exp2C2 - log 2 ^ 2 / 2| ≤ 1007 / 10 ^ 17 ∧
    |binary64.val CC.exp2C3 - log 2 ^ 3 / 6| ≤ 3788 / 10 ^ 15 ∧ |binary64.val CC.exp2C4 - log 2 ^ 4 / 24| ≤ 2869 / 10 ^ 12 ∧
    |binary64.val CC.exp2C5 - log 2 ^ 5 / 120| ≤ 14837 / 10 ^ 11 := by
  obtain ⟨l1, l2⟩ := ln2_bounds
  have g1 : (69314718055994530941 : ℝ) / 10 ^ 20 ≤ log 2 := le_trans (by norm_num) l1
  have g2 : log 2 ≤ (69314718055994530942 : ℝ) / 10 ^ 20 := le_trans l2 (by norm_num)
  have h0 : (0 : ℝ) ≤ 69314718055994530941 / 10 ^ 20 := by norm_num
  have hp : ∀ n : ℕ, ((69314718055994530941 : ℝ) / 10 ^ 20) ^ n ≤ log 2 ^ n ∧ log 2 ^ n ≤ (69314718055994530942 / 10 ^ 20) ^ n := fun n =>
    ⟨pow_le_pow_left₀ h0 g1 n, pow_le_pow_left₀ (le_trans h0 g1) g2 n⟩
  have a2 := hp 2
  have a3 := hp 3
  have a4 := hp 4
  have a5 := hp 5
  rw [val_e1, val_e2, val_e3, val_e4, val_e5]
  generalize log 2 ^ 2 = L2 at *
  generalize log 2 ^ 3 = L3 at *
  generalize log 2 ^ 4 = L4 at *
  generalize log 2 ^ 5 = L5 at *
  norm_num at a2 a3 a4 a5 g1 g2
  simp only [abs_le]
  norm_num
  exact ⟨⟨by linarith, by linarith⟩, ⟨by linarith [a2.2], by linarith [a2.1]⟩, ⟨by linarith [a3.2], by linarith [a3.1]⟩, ⟨by linarith [a4.2], by linarith [a4.1]⟩, by linarith [a5.2], by linarith [a5.1]⟩

/-- error of the polynomial of `exp2`, in units of `ru` -/
noncomputable def pθ2 (m : Mode) : ℝ := if m = .nearest then 18 / 1000 else 264 / 1000
theorem pθ2_nonneg (m : Mode) : 0 ≤ pθ2 m := by unfold pθ2; split_ifs <;> norm_num
theorem pθ2_le (m : Mode) : pθ2 m ≤ 264 / 1000 := by unfold pθ2; split_ifs <;> norm_num

theorem exp2_poly {s R e : ℝ} (h : |s| ≤ R) (hR : R ≤ 1)
    (hb : R * (233 / 10 ^ 19) + R ^ 2 * (1007 / 10 ^ 17) + R ^ 3 * (3788 / 10 ^ 15) + R ^ 4 * (2869 / 10 ^ 12) + R ^ 5 * (14837 / 10 ^ 11) + (R * (693148 / 10 ^ 6)) ^ 6 * (7 / 4320) ≤ e) :
    |s * binary64.val CC.exp2C1 + s ^ 2 * (binary64.val CC.exp2C2 + s * binary64.val CC.exp2C3) + s ^ 4 * (binary64.val CC.exp2C4 + s * binary64.val CC.exp2C5) - (exp (s * log 2) - 1)| ≤ e := by
  obtain ⟨d1, d2, d3, d4, d5⟩ := exp2_coef
  obtain ⟨l1, l2⟩ := log2_bd
  have hR0 : 0 ≤ R := le_trans (abs_nonneg _) h
  have hsl : |s * log 2| ≤ R * (693148 / 10 ^ 6) := by
    refine abs_mul_le h ?_
    rw [abs_of_pos (by linarith)]; exact l2
  have ht := exp_taylor hsl (by nlinarith)
  generalize binary64.val CC.exp2C1 = C1 at *
  generalize binary64.val CC.exp2C2 = C2 at *
  generalize binary64.val CC.exp2C3 = C3 at *
  generalize binary64.val CC.exp2C4 = C4 at *
  generalize binary64.val CC.exp2C5 = C5 at *
  generalize log 2 = L at *
  have hp : ∀ n, |s ^ n| ≤ R ^ n := fun n => by rw [abs_pow]; exact pow_le_pow_left₀ (abs_nonneg _) h n
  have e1 : s * C1 + s ^ 2 * (C2 + s * C3) + s ^ 4 * (C4 + s * C5) - (exp (s * L) - 1) =
      s * (C1 - L) + s ^ 2 * (C2 - L ^ 2 / 2) + s ^ 3 * (C3 - L ^ 3 / 6) + s ^ 4 * (C4 - L ^ 4 / 24) + s ^ 5 * (C5 - L ^ 5 / 120) -
        (exp (s * L) - (1 + s * L + (s * L) ^ 2 / 2 + (s * L) ^ 3 / 6 + (s * L) ^ 4 / 24 + (s * L) ^ 5 / 120)) := by ring
  rw [e1]
  refine le_trans (abs_sub _ _) ?_
  have := abs_add_le' (abs_add_le' (abs_add_le' (abs_add_le' (abs_mul_le h d1) (abs_mul_le (hp 2) d2)) (abs_mul_le (hp 3) d3)) (abs_mul_le (hp 4) d4)) (abs_mul_le (hp 5) d5)
  linarith

theorem exp2_parts (md : Mode) {x : ℕ} (hx : binary64.Finite x) (hb : |binary64.val x| ≤ 1100) :
    ∃ (k : ℤ) (ki tmp : ℕ), CC.exp2Parts md x = (tmp, sBits ki, ki) ∧ (ki : ℤ) = (0x433 - (7 : ℕ)) * 2 ^ 52 + 2 ^ 51 + k ∧ |k| ≤ 141000 ∧
      |binary64.val x - k * (1 / 128)| ≤ rq md * (1 / 128) ∧ binary64.Finite tmp ∧
      |binary64.val tmp - (binary64.val (tabT (kIdx k)) + (exp (binary64.val x * log 2 - k * (log 2 / 128)) - 1))| ≤ ru md * (2820 / 10 ^ 5 + pθ2 md) := by
  obtain ⟨k, k1, k2, k3, k4⟩ := shift64 md 7 (by norm_num) (sh := CC.exp2Shift) hx (by decide +kernel) (le_trans hb (by norm_num))
  have e7 : (2 : ℝ) ^ (-((7 : ℕ) : ℤ)) = 1 / 128 := by norm_num
  rw [e7] at k2 k4
  have hu := ru_pos md
  have hu2 := ru_le md
  have hu3 := ru_ge md
  have hq := rq_le md
  have hq0 := rq_pos md
  obtain ⟨l1, l2⟩ := log2_bd
  have hlt := kIdx_lt k
  obtain ⟨-, -, -, tf, tb, -⟩ := tab_spec hlt
  have fC1 : binary64.Finite CC.exp2C1 := by decide +kernel
  have fC2 : binary64.Finite CC.exp2C2 := by decide +kernel
  have fC3 : binary64.Finite CC.exp2C3 := by decide +kernel
  have fC4 : binary64.Finite CC.exp2C4 := by decide +kernel
  have fC5 : binary64.Finite CC.exp2C5 := by decide +kernel
  have b1 : |binary64.val CC.exp2C1| ≤ 693148 / 10 ^ 6 := by rw [val_e1, abs_le]; constructor <;> norm_num
  have b2 : |binary64.val CC.exp2C2| ≤ 51 / 100 := by rw [val_e2, abs_le]; constructor <;> norm_num
  have b3 : |binary64.val CC.exp2C3| ≤ 17 / 100 := by rw [val_e3, abs_le]; constructor <;> norm_num
  have b4 : |binary64.val CC.exp2C4| ≤ 42 / 1000 := by rw [val_e4, abs_le]; constructor <;> norm_num
  have b5 : |binary64.val CC.exp2C5| ≤ 84 / 10000 := by rw [val_e5, abs_le]; constructor <;> norm_num
  have hk : |k| ≤ 141000 := by
    have h1 : |(k : ℝ) * (1 / 128)| ≤ 1101 := by
      have h2 : |(k : ℝ) * (1 / 128) - binary64.val x| ≤ 1 := by rw [abs_sub_comm]; refine le_trans k2 ?_; linarith
      have := abs_near h2 hb
      linarith
    rw [abs_mul, abs_of_pos (show (0 : ℝ) < 1 / 128 by norm_num)] at h1
    have h3 : |(k : ℝ)| ≤ 141000 := by linarith
    exact_mod_cast h3
  have R := binary64.hsub_spec md hx k3
  rw [k4] at R
  have hsR : |binary64.val x - k * (1 / 128)| ≤ 78125 / 10 ^ 7 := by refine le_trans k2 ?_; linarith
  obtain ⟨fr, er⟩ := st_err R hsR (by norm_num)
  set r := binary64.hsub md x (binary64.hsub md (binary64.hadd md x CC.exp2Shift) CC.exp2Shift) with hr
  set s := binary64.val x - k * (1 / 128) with hs
  have er' : |binary64.val r - s| ≤ ru md * (7813 / 10 ^ 6) := le_trans er (mul_le_mul_of_nonneg_left (by norm_num) hu.le)
  have hrR : |binary64.val r| ≤ 7813 / 10 ^ 6 := by
    refine le_trans (abs_near er' hsR) ?_
    have : ru md * (7813 / 10 ^ 6) ≤ 1 / 2 ^ 52 * (7813 / 10 ^ 6) := mul_le_mul_of_nonneg_right hu2 (by norm_num)
    have c : (78125 : ℝ) / 10 ^ 7 + 1 / 2 ^ 52 * (7813 / 10 ^ 6) ≤ 7813 / 10 ^ 6 := by norm_num
    linarith
  have hpb := abs_mul_le hrR b1
  obtain ⟨fp, ep⟩ := st_mul md fr fC1 hpb (by norm_num)
  have ep' : |binary64.val (binary64.hmul md r CC.exp2C1) - binary64.val r * binary64.val CC.exp2C1| ≤ ru md * (5417 / 10 ^ 6) :=
    le_trans ep (mul_le_mul_of_nonneg_left (by norm_num) hu.le)
  have hpR : |binary64.val (binary64.hmul md r CC.exp2C1)| ≤ 55 / 10000 := by
    refine le_trans (abs_near ep' hpb) ?_
    have : ru md * (5417 / 10 ^ 6) ≤ 1 / 2 ^ 52 * (5417 / 10 ^ 6) := mul_le_mul_of_nonneg_right hu2 (by norm_num)
    have c : (7813 : ℝ) / 10 ^ 6 * (693148 / 10 ^ 6) + 1 / 2 ^ 52 * (5417 / 10 ^ 6) ≤ 55 / 10000 := by norm_num
    linarith
  obtain ⟨fm, em⟩ := poly_round md tf fp fr fC2 fC3 fC4 fC5 tb hpR (le_trans hrR (by norm_num)) b2 b3 b4 b5
  refine ⟨k, binary64.hadd md x CC.exp2Shift, _, ?_, k1, hk, k2, fm, ?_⟩
  · unfold CC.exp2Parts sBits
    simp only
    have hm := ki_mod (k := k) 7 (by norm_num) k1
    rw [hm]
    rfl
  · have hlip := poly_lip (le_trans hrR (by norm_num)) (le_trans hsR (by norm_num)) b2 b3 b4 b5 er'
    have hpoly : |s * binary64.val CC.exp2C1 + s ^ 2 * (binary64.val CC.exp2C2 + s * binary64.val CC.exp2C3) + s ^ 4 * (binary64.val CC.exp2C4 + s * binary64.val CC.exp2C5) - (exp (s * log 2) - 1)| ≤ ru md * pθ2 md := by
      unfold pθ2
      by_cases hm : md = .nearest
      · rw [if_pos hm]
        refine exp2_poly (R := 1 / 256) ?_ (by norm_num) ?_
        · refine le_trans k2 ?_
          rw [rq, if_pos hm]; norm_num
        · rw [ru, if_pos hm]; norm_num
      · rw [if_neg hm]
        refine exp2_poly (R := 1 / 128) (by linarith) (by norm_num) ?_
        rw [ru, if_neg hm]; norm_num
    have es : binary64.val x * log 2 - k * (log 2 / 128) = s * log 2 := by rw [hs]; ring
    rw [es]
    generalize binary64.val (binary64.hadd md (binary64.hadd md _ _) _) = M at *
    generalize binary64.val (tabT (kIdx k)) = T at *
    generalize binary64.val (binary64.hmul md r CC.exp2C1) = P at *
    generalize binary64.val r = Rr at *
    generalize binary64.val CC.exp2C1 = C1 at *
    generalize binary64.val CC.exp2C2 = C2 at *
    generalize binary64.val CC.exp2C3 = C3 at *
    generalize binary64.val CC.exp2C4 = C4 at *
    generalize binary64.val CC.exp2C5 = C5 at *
    have e1 : M - (T + (exp (s * log 2) - 1)) = (M - (T + P + Rr ^ 2 * (C2 + Rr * C3) + Rr ^ 4 * (C4 + Rr * C5))) + (P - Rr * C1) + (Rr - s) * C1 +
        ((Rr ^ 2 * (C2 + Rr * C3) + Rr ^ 4 * (C4 + Rr * C5)) - (s ^ 2 * (C2 + s * C3) + s ^ 4 * (C4 + s * C5))) +
        (s * C1 + s ^ 2 * (C2 + s * C3) + s ^ 4 * (C4 + s * C5) - (exp (s * log 2) - 1)) := by ring
    rw [e1]
    refine le_trans (abs_add_le' (abs_add_le' (abs_add_le' (abs_add_le' em ep') (abs_mul_le er' b1)) hlip) hpoly) ?_
    linarith

/-- error of `scale * (1 + tmp)` in `exp2` before the last rounding, in units of `ru` relative to the result -/
noncomputable def exp2E (md : Mode) : ℝ := 1006 / 1000 * (2820 / 10 ^ 5 + pθ2 md) + 1124 / 10 ^ 5
noncomputable def exp2K (md : Mode) : ℝ := if md = .nearest then 107 / 100 else 132 / 100
theorem exp2E_nonneg (md : Mode) : 0 ≤ exp2E md := by unfold exp2E; have := pθ2_nonneg md; linarith
theorem exp2E_le (md : Mode) : exp2E md ≤ 31 / 100 := by unfold exp2E; have := pθ2_le md; linarith
theorem exp2K_ge (md : Mode) : exp2E md + 61 / 10 ^ 4 + 999 / 1000 ≤ exp2K md := by
  unfold exp2K exp2E pθ2; split_ifs <;> norm_num
theorem exp2K_ge1 (md : Mode) : 106 / 100 ≤ exp2K md := by unfold exp2K; split_ifs <;> norm_num
theorem exp2K_le (md : Mode) : exp2K md ≤ 132 / 100 := by unfold exp2K; split_ifs <;> norm_num

theorem exp2_core (md : Mode) {x : ℕ} (hx : binary64.Finite x) (hb : |binary64.val x| ≤ 1100) :
    ∃ (k : ℤ) (ki tmp : ℕ), CC.exp2Parts md x = (tmp, sBits ki, ki) ∧ (ki : ℤ) = (0x433 - (7 : ℕ)) * 2 ^ 52 + 2 ^ 51 + k ∧ |k| ≤ 141000 ∧
      |binary64.val x - k * (1 / 128)| ≤ 1 / 128 ∧ CoreOk md (binary64.val x * log 2) k tmp (exp2E md) := by
  obtain ⟨k, ki, tmp, p1, p2, p3, p4, p5, p6⟩ := exp2_parts md hx hb
  have h1 : |binary64.val x - k * (1 / 128)| ≤ 1 / 128 := by have := rq_le md; linarith
  refine ⟨k, ki, tmp, p1, p2, p3, h1, ?_⟩
  refine core_gen md ?_ p5 p6 (by have := pθ2_nonneg md; linarith) (by have := pθ2_le md; linarith)
  obtain ⟨c1, c2, -⟩ := ln2_consts
  have e : binary64.val x * log 2 - k * (log 2 / 128) = (binary64.val x - k * (1 / 128)) * (128 * (log 2 / 128)) := by ring
  rw [e]
  refine le_trans (abs_mul_le h1 (show |128 * (log 2 / 128)| ≤ 128 * (541522 / 10 ^ 8) by rw [abs_of_pos (by linarith)]; linarith)) (by norm_num)

end Verif
