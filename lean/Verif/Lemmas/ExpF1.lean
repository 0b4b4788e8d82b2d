import Verif.Lemmas.Exp11
import Verif.Lemmas.SinCosF4

/-!
# The float exponential functions: reduction, table, cubic
-/

namespace Verif
open Fmt Real

theorem val_g0 : binary64.val CC.exp2Cf0 = 0x1C6AF84B912394 / 2 ^ 57 := by
  rw [show CC.exp2Cf0 = 0x3FAC6AF84B912394 from rfl, lit64 false 0x1C6AF84B912394 57 (by decide +kernel) (by decide +kernel) (by decide +kernel) (by decide +kernel)]; norm_num [sg]
theorem val_g1 : binary64.val CC.exp2Cf1 = 0x1EBFCE50FAC4F3 / 2 ^ 55 := by
  rw [show CC.exp2Cf1 = 0x3FCEBFCE50FAC4F3 from rfl, lit64 false 0x1EBFCE50FAC4F3 55 (by decide +kernel) (by decide +kernel) (by decide +kernel) (by decide +kernel)]; norm_num [sg]
theorem val_g2 : binary64.val CC.exp2Cf2 = 0x162E42FF0C52D6 / 2 ^ 53 := by
  rw [show CC.exp2Cf2 = 0x3FE62E42FF0C52D6 from rfl, lit64 false 0x162E42FF0C52D6 53 (by decide +kernel) (by decide +kernel) (by decide +kernel) (by decide +kernel)]; norm_num [sg]
theorem val_h0 : binary64.val CC.expCf0 = binary64.val CC.exp2Cf0 * (1 / 32) ^ 3 := by
  rw [val_g0, show CC.expCf0 = 0x3EBC6AF84B912394 from rfl, lit64 false 0x1C6AF84B912394 72 (by decide +kernel) (by decide +kernel) (by decide +kernel) (by decide +kernel)]; norm_num [sg]
theorem val_h1 : binary64.val CC.expCf1 = binary64.val CC.exp2Cf1 * (1 / 32) ^ 2 := by
  rw [val_g1, show CC.expCf1 = 0x3F2EBFCE50FAC4F3 from rfl, lit64 false 0x1EBFCE50FAC4F3 65 (by decide +kernel) (by decide +kernel) (by decide +kernel) (by decide +kernel)]; norm_num [sg]
theorem val_h2 : binary64.val CC.expCf2 = binary64.val CC.exp2Cf2 * (1 / 32) := by
  rw [val_g2, show CC.expCf2 = 0x3F962E42FF0C52D6 from rfl, lit64 false 0x162E42FF0C52D6 58 (by decide +kernel) (by decide +kernel) (by decide +kernel) (by decide +kernel)]; norm_num [sg]

/-- the coefficients against the Taylor coefficients of `2^x` -/
theorem expf_coef : |binary64.val CC.exp2Cf2 - log 2| ≤ 132 / 10 ^ 12 ∧ |binary64.val CC.exp2Cf1 - log 2 ^ 2 / 2| ≤ 19453 / 10 ^ 10 ∧
    |binary64.val CC.exp2Cf0 - log 2 ^ 3 / 6| ≤ 4931 / 10 ^ 10 := by
  obtain ⟨l1, l2⟩ := ln2_bounds
  have g1 : (69314718055994530941 : ℝ) / 10 ^ 20 ≤ log 2 := le_trans (by norm_num) l1
  have g2 : log 2 ≤ (69314718055994530942 : ℝ) / 10 ^ 20 := le_trans l2 (by norm_num)
  have h0 : (0 : ℝ) ≤ 69314718055994530941 / 10 ^ 20 := by norm_num
  have hp : ∀ n : ℕ, ((69314718055994530941 : ℝ) / 10 ^ 20) ^ n ≤ log 2 ^ n ∧ log 2 ^ n ≤ (69314718055994530942 / 10 ^ 20) ^ n := fun n =>
    ⟨pow_le_pow_left₀ h0 g1 n, pow_le_pow_left₀ (le_trans h0 g1) g2 n⟩
  have a2 := hp 2
  have a3 := hp 3
  rw [val_g0, val_g1, val_g2]
  generalize log 2 ^ 2 = L2 at *
  generalize log 2 ^ 3 = L3 at *
  norm_num at a2 a3 g1 g2
  simp only [abs_le]
  norm_num
  exact ⟨⟨by linarith, by linarith⟩, ⟨by linarith [a2.2], by linarith [a2.1]⟩, by linarith [a3.2], by linarith [a3.1]⟩

/-- error of the cubic -/
noncomputable def pf (m : Mode) : ℝ := if m = .nearest then 107 / 10 ^ 11 else 1125 / 10 ^ 11
theorem pf_nonneg (m : Mode) : 0 ≤ pf m := by unfold pf; split_ifs <;> norm_num
theorem pf_le (m : Mode) : pf m ≤ 1125 / 10 ^ 11 := by unfold pf; split_ifs <;> norm_num

theorem expf_poly {s R e : ℝ} (h : |s| ≤ R) (hR : R ≤ 1)
    (hb : R * (132 / 10 ^ 12) + R ^ 2 * (19453 / 10 ^ 10) + R ^ 3 * (4931 / 10 ^ 10) + (R * (693148 / 10 ^ 6)) ^ 4 / 24 + (R * (693148 / 10 ^ 6)) ^ 5 / 120 +
      (R * (693148 / 10 ^ 6)) ^ 6 * (7 / 4320) ≤ e) :
    |binary64.val CC.exp2Cf0 * s ^ 3 + binary64.val CC.exp2Cf1 * s ^ 2 + binary64.val CC.exp2Cf2 * s + 1 - exp (s * log 2)| ≤ e := by
  obtain ⟨d1, d2, d3⟩ := expf_coef
  obtain ⟨l1, l2⟩ := log2_bd
  have hR0 : 0 ≤ R := le_trans (abs_nonneg _) h
  have hsl : |s * log 2| ≤ R * (693148 / 10 ^ 6) := by
    refine abs_mul_le h ?_
    rw [abs_of_pos (by linarith)]; exact l2
  have ht := exp_taylor hsl (by nlinarith)
  generalize binary64.val CC.exp2Cf2 = C1 at *
  generalize binary64.val CC.exp2Cf1 = C2 at *
  generalize binary64.val CC.exp2Cf0 = C3 at *
  generalize log 2 = L at *
  have hp : ∀ n, |s ^ n| ≤ R ^ n := fun n => by rw [abs_pow]; exact pow_le_pow_left₀ (abs_nonneg _) h n
  have hq : ∀ n (c : ℝ), 0 < c → |(s * L) ^ n / c| ≤ (R * (693148 / 10 ^ 6)) ^ n / c := fun n c hc => by
    rw [abs_div, abs_pow, abs_of_pos hc]
    exact div_le_div_of_nonneg_right (pow_le_pow_left₀ (abs_nonneg _) hsl n) hc.le
  have e1 : C3 * s ^ 3 + C2 * s ^ 2 + C1 * s + 1 - exp (s * L) =
      s * (C1 - L) + s ^ 2 * (C2 - L ^ 2 / 2) + s ^ 3 * (C3 - L ^ 3 / 6) - (s * L) ^ 4 / 24 - (s * L) ^ 5 / 120 -
        (exp (s * L) - (1 + s * L + (s * L) ^ 2 / 2 + (s * L) ^ 3 / 6 + (s * L) ^ 4 / 24 + (s * L) ^ 5 / 120)) := by ring
  rw [e1]
  refine le_trans (abs_sub _ _) ?_
  have h1 := abs_add_le' (abs_add_le' (abs_mul_le h d1) (abs_mul_le (hp 2) d2)) (abs_mul_le (hp 3) d3)
  have h2 := le_trans (abs_sub (s * (C1 - L) + s ^ 2 * (C2 - L ^ 2 / 2) + s ^ 3 * (C3 - L ^ 3 / 6)) ((s * L) ^ 4 / 24)) (add_le_add h1 (hq 4 24 (by norm_num)))
  have h3 := le_trans (abs_sub (s * (C1 - L) + s ^ 2 * (C2 - L ^ 2 / 2) + s ^ 3 * (C3 - L ^ 3 / 6) - (s * L) ^ 4 / 24) ((s * L) ^ 5 / 120)) (add_le_add h2 (hq 5 120 (by norm_num)))
  linarith

theorem expf_poly' (md : Mode) {s : ℝ} (h : |s| ≤ rq md * (1 / 32)) :
    |binary64.val CC.exp2Cf0 * s ^ 3 + binary64.val CC.exp2Cf1 * s ^ 2 + binary64.val CC.exp2Cf2 * s + 1 - exp (s * log 2)| ≤ pf md := by
  unfold pf
  by_cases hm : md = .nearest
  · rw [if_pos hm]
    refine expf_poly (R := 1 / 64) ?_ (by norm_num) (by norm_num)
    rw [rq, if_pos hm] at h
    linarith
  · rw [if_neg hm]
    refine expf_poly (R := 1 / 32) ?_ (by norm_num) (by norm_num)
    rw [rq, if_neg hm] at h
    linarith

/-- The cubic `(a0 r + a1) r² + (a2 r + 1)` as evaluated. -/
theorem cubic_round (md : Mode) {a0 a1 a2 r : ℕ} (f0 : binary64.Finite a0) (f1 : binary64.Finite a1) (f2 : binary64.Finite a2) (fr : binary64.Finite r)
    (b0 : |binary64.val a0| ≤ 1 / 16) (b1 : |binary64.val a1| ≤ 1 / 4) (b2 : |binary64.val a2 * binary64.val r| ≤ 3 / 128) (br : |binary64.val r| ≤ 17 / 16)
    (b02 : |binary64.val a0 * binary64.val r| ≤ 1 / 16) :
    binary64.Finite (binary64.hadd md (binary64.hmul md (binary64.hadd md (binary64.hmul md a0 r) a1) (binary64.hmul md r r)) (binary64.hadd md (binary64.hmul md a2 r) 0x3FF0000000000000)) ∧
      |binary64.val (binary64.hadd md (binary64.hmul md (binary64.hadd md (binary64.hmul md a0 r) a1) (binary64.hmul md r r)) (binary64.hadd md (binary64.hmul md a2 r) 0x3FF0000000000000)) -
        (binary64.val a0 * binary64.val r ^ 3 + binary64.val a1 * binary64.val r ^ 2 + binary64.val a2 * binary64.val r + 1)| ≤ 1 / 2 ^ 49 := by
  have hu := ru_pos md
  have hu2 := ru_le md
  have fone : binary64.Finite 0x3FF0000000000000 := by decide +kernel
  have hU : ∀ B : ℝ, 0 ≤ B → ru md * (B + 1 / 2 ^ 140) ≤ 1 / 2 ^ 52 * (B + 1 / 2 ^ 140) := fun B hB => mul_le_mul_of_nonneg_right hu2 (by positivity)
  obtain ⟨g1, e1⟩ := st_mul md f0 fr b02 (by norm_num)
  have e1' := le_trans e1 (le_trans (hU _ (by norm_num)) (show _ ≤ (1 : ℝ) / 2 ^ 55 by norm_num))
  have c1 := abs_near e1' b02
  obtain ⟨g2, e2⟩ := st_add md g1 f1 (abs_add_le' c1 b1) (by norm_num)
  have e2' := le_trans e2 (le_trans (hU _ (by norm_num)) (show _ ≤ (1 : ℝ) / 2 ^ 53 by norm_num))
  have c2 := abs_near e2' (abs_add_le' c1 b1)
  obtain ⟨g3, e3⟩ := st_mul md fr fr (abs_mul_le br br) (by norm_num)
  have e3' := le_trans e3 (le_trans (hU _ (by norm_num)) (show _ ≤ (1 : ℝ) / 2 ^ 51 by norm_num))
  have c3 := abs_near e3' (abs_mul_le br br)
  obtain ⟨g4, e4⟩ := st_mul md g2 g3 (abs_mul_le c2 c3) (by norm_num)
  have e4' := le_trans e4 (le_trans (hU _ (by norm_num)) (show _ ≤ (1 : ℝ) / 2 ^ 53 by norm_num))
  have c4 := abs_near e4' (abs_mul_le c2 c3)
  obtain ⟨g5, e5⟩ := st_mul md f2 fr b2 (by norm_num)
  have e5' := le_trans e5 (le_trans (hU _ (by norm_num)) (show _ ≤ (1 : ℝ) / 2 ^ 55 by norm_num))
  have c5 := abs_near e5' b2
  have h1 : |binary64.val 0x3FF0000000000000| ≤ 1 := by rw [val_one64, abs_one]
  obtain ⟨g6, e6⟩ := st_add md g5 fone (abs_add_le' c5 h1) (by norm_num)
  have e6' := le_trans e6 (le_trans (hU _ (by norm_num)) (show _ ≤ (1 : ℝ) / 2 ^ 51 by norm_num))
  have c6 := abs_near e6' (abs_add_le' c5 h1)
  obtain ⟨g7, e7⟩ := st_add md g4 g6 (abs_add_le' c4 c6) (by norm_num)
  have e7' := le_trans e7 (le_trans (hU _ (by norm_num)) (show _ ≤ (1 : ℝ) / 2 ^ 51 by norm_num))
  refine ⟨g7, ?_⟩
  rw [val_one64] at e6'
  clear c1 c3 c4 c5 c6 e1 e2 e3 e4 e5 e6 e7 h1 hU
  have hr2 := abs_mul_le br br
  generalize binary64.val (binary64.hadd md (binary64.hmul md (binary64.hadd md (binary64.hmul md a0 r) a1) (binary64.hmul md r r)) (binary64.hadd md (binary64.hmul md a2 r) 0x3FF0000000000000)) = v7 at *
  generalize binary64.val (binary64.hmul md (binary64.hadd md (binary64.hmul md a0 r) a1) (binary64.hmul md r r)) = v4 at *
  generalize binary64.val (binary64.hadd md (binary64.hmul md a2 r) 0x3FF0000000000000) = v6 at *
  generalize binary64.val (binary64.hmul md a2 r) = v5 at *
  generalize binary64.val (binary64.hadd md (binary64.hmul md a0 r) a1) = v2 at *
  generalize binary64.val (binary64.hmul md a0 r) = v1 at *
  generalize binary64.val (binary64.hmul md r r) = v3 at *
  generalize binary64.val a0 = A0 at *
  generalize binary64.val a1 = A1 at *
  generalize binary64.val a2 = A2 at *
  generalize binary64.val r = r at *
  have e : v7 - (A0 * r ^ 3 + A1 * r ^ 2 + A2 * r + 1) =
      (v7 - (v4 + v6)) + (v4 - v2 * v3) + v2 * (v3 - r * r) + ((v2 - (v1 + A1)) + (v1 - A0 * r)) * (r * r) + (v6 - (v5 + 1)) + (v5 - A2 * r) := by ring
  rw [e]
  refine le_trans (abs_add_le' (abs_add_le' (abs_add_le' (abs_add_le' (abs_add_le' e7' e4') (abs_mul_le c2 e3')) (abs_mul_le (abs_add_le' e2' e1') hr2)) e6') e5') ?_
  norm_num

/-- the scale taken from the table of 32 entries -/
def sBitsf (ki : ℕ) : ℕ := (CC.expTabf.getD (ki % 32) 0 + (ki <<< 47) % 2 ^ 64) % 2 ^ 64

theorem tabf_eq : ∀ i < 32, CC.expTabf.getD i 0 + i * 2 ^ 47 = 1022 * 2 ^ 52 + tabH (4 * i) := by decide +kernel

theorem sBitsf_mod {ki : ℕ} {k : ℤ} (j : ℕ) (hj : j ≤ 10) (h : (ki : ℤ) = (0x433 - j) * 2 ^ 52 + 2 ^ 51 + k) :
    (sBitsf ki : ℤ) = ((1022 + (4 * k) / 128 + 0) * 2 ^ 52 + tabH (kIdx (4 * k))) % 2 ^ 64 := by
  have h1 : (((ki <<< 47) % 2 ^ 64 : ℕ) : ℤ) = (k * 2 ^ 47) % 2 ^ 64 := by
    rw [Nat.shiftLeft_eq]; omega
  have h2 : ((ki % 32 : ℕ) : ℤ) = k % 32 := by omega
  have h3 := tabf_eq (ki % 32) (Nat.mod_lt _ (by norm_num))
  have h4 : kIdx (4 * k) = 4 * (ki % 32) := by unfold kIdx; omega
  unfold sBitsf
  rw [h4]
  generalize (ki <<< 47) % 2 ^ 64 = s at *
  generalize CC.expTabf.getD (ki % 32) 0 = t at *
  generalize tabH (4 * (ki % 32)) = m at *
  generalize ki % 32 = i at *
  have h5 : k * 2 ^ 47 = (4 * k / 128) * 2 ^ 52 + i * 2 ^ 47 := by omega
  have h6 : (t : ℤ) + i * 2 ^ 47 = 1022 * 2 ^ 52 + m := by exact_mod_cast h3
  omega

theorem scalef {ki : ℕ} {k : ℤ} (j : ℕ) (hj : j ≤ 10) (h : (ki : ℤ) = (0x433 - j) * 2 ^ 52 + 2 ^ 51 + k) (hk : |k| ≤ 10000) :
    binary64.Finite (sBitsf ki) ∧ 0 < binary64.val (sBitsf ki) ∧ |binary64.val (sBitsf ki) - exp (k * (log 2 / 32))| ≤ exp (k * (log 2 / 32)) * (1 / 2 ^ 51) := by
  have hk' := abs_le.1 hk
  obtain ⟨f, v⟩ := scale64 (sBitsf_mod j hj h) (by omega) (by omega)
  have h1 := scale_exp (4 * k)
  obtain ⟨t1, -, -, -, t5, -⟩ := tab_spec (kIdx_lt (4 * k))
  rw [add_zero] at v
  rw [← v] at h1
  have hv : 0 < binary64.val (sBitsf ki) := by
    rw [v]
    refine mul_pos ?_ (two_zpow_pos _)
    have : (0 : ℝ) < tabH (kIdx (4 * k)) := by exact_mod_cast lt_of_lt_of_le (by norm_num) t1
    exact div_pos this (by norm_num)
  refine ⟨f, hv, ?_⟩
  have e : ((4 * k : ℤ) : ℝ) * (log 2 / 128) = k * (log 2 / 32) := by push_cast; ring
  rw [e] at h1
  have hE := Real.exp_pos ((k : ℝ) * (log 2 / 32))
  generalize exp ((k : ℝ) * (log 2 / 32)) = E at *
  generalize binary64.val (sBitsf ki) = S at *
  generalize binary64.val (tabT (kIdx (4 * k))) = T at *
  have h2 : |S - E| ≤ S * (1 / 2 ^ 104) + S * (1 / 2 ^ 53) := by
    have e2 : S - E = (S * (1 + T) - E) + S * (-T) := by ring
    rw [e2]
    refine abs_add_le' (by rw [abs_sub_comm]; exact h1) ?_
    rw [abs_mul, abs_of_pos hv, abs_neg]
    exact mul_le_mul_of_nonneg_left t5 hv.le
  have h3 := (abs_le.1 h2).2
  have h4 : S * (1 / 2 ^ 104) + S * (1 / 2 ^ 53) ≤ S * (1 / 2 ^ 52) := by
    have : (1 : ℝ) / 2 ^ 104 + 1 / 2 ^ 53 ≤ 1 / 2 ^ 52 := by norm_num
    have := mul_le_mul_of_nonneg_left this hv.le
    linarith
  have h5 : S ≤ 2 * E := by
    have : S * (1 / 2 ^ 52) ≤ S * (1 / 4) := mul_le_mul_of_nonneg_left (by norm_num) hv.le
    linarith
  have h6 : S * (1 / 2 ^ 52) ≤ 2 * E * (1 / 2 ^ 52) := mul_le_mul_of_nonneg_right h5 (by positivity)
  have e3 : 2 * E * ((1 : ℝ) / 2 ^ 52) = E * (1 / 2 ^ 51) := by ring
  linarith

theorem expf_comb {S y E P p : ℝ} (hE : 0 < E) (hP : 97 / 100 ≤ P) (hP2 : P ≤ 103 / 100) (hp0 : 0 ≤ p) (h1 : |S - E| ≤ E * (1 / 2 ^ 51)) (h2 : |y - P| ≤ p + 1 / 2 ^ 47) (hp : p ≤ 1125 / 10 ^ 11)
    (hPp : 1 / P ≤ 1022 / 1000) :
    |S * y - E * P| ≤ E * P * (1022 / 1000 * p + 1 / 2 ^ 45) := by
  have e : S * y - E * P = E * (y - P) + (S - E) * y := by ring
  have hy : |y| ≤ 2 := by
    have hPa : |P| ≤ 103 / 100 := by rw [abs_le]; constructor <;> linarith
    have := abs_near h2 hPa
    have c : (103 : ℝ) / 100 + (1125 / 10 ^ 11 + 1 / 2 ^ 47) ≤ 2 := by norm_num
    linarith
  have hEa : |E| ≤ E := (abs_of_pos hE).le
  rw [e]
  refine le_trans (abs_add_le' (abs_mul_le hEa h2) (abs_mul_le h1 hy)) ?_
  have h3 : 1 ≤ P * (1022 / 1000) := by
    rw [div_le_iff₀ (by linarith)] at hPp; linarith
  have h4 : p * 1 ≤ p * (P * (1022 / 1000)) := mul_le_mul_of_nonneg_left h3 hp0
  have h5 : (1 : ℝ) / 2 ^ 47 + 1 / 2 ^ 51 * 2 ≤ P * (1 / 2 ^ 45) := by
    have : (97 : ℝ) / 100 * (1 / 2 ^ 45) ≤ P * (1 / 2 ^ 45) := mul_le_mul_of_nonneg_right hP (by positivity)
    have c : (1 : ℝ) / 2 ^ 47 + 1 / 2 ^ 51 * 2 ≤ 97 / 100 * (1 / 2 ^ 45) := by norm_num
    linarith
  have h6 : E * (p + 1 / 2 ^ 47 + 1 / 2 ^ 51 * 2) ≤ E * (p * (P * (1022 / 1000)) + P * (1 / 2 ^ 45)) := mul_le_mul_of_nonneg_left (by linarith) hE.le
  linarith

theorem cubic_lip {A0 A1 A2 w r s : ℝ} (hw0 : 0 ≤ w) (hw : w ≤ 1) (hr : |r| ≤ 17 / 16) (hs : |s| ≤ 17 / 16) (b0 : |A0| ≤ 1 / 16) (b1 : |A1| ≤ 1 / 4) (b2 : |A2| ≤ 1)
    (h : |r - s| ≤ 1 / 2 ^ 51) :
    |(A0 * w ^ 3 * r ^ 3 + A1 * w ^ 2 * r ^ 2 + A2 * w * r + 1) - (A0 * (s * w) ^ 3 + A1 * (s * w) ^ 2 + A2 * (s * w) + 1)| ≤ 1 / 2 ^ 48 := by
  have e : (A0 * w ^ 3 * r ^ 3 + A1 * w ^ 2 * r ^ 2 + A2 * w * r + 1) - (A0 * (s * w) ^ 3 + A1 * (s * w) ^ 2 + A2 * (s * w) + 1) =
      (A0 * (w * w * w) * (r * r + r * s + s * s) + A1 * (w * w) * (r + s) + A2 * w) * (r - s) := by ring
  have hwa : |w| ≤ 1 := by rw [abs_of_nonneg hw0]; exact hw
  rw [e]
  refine le_trans (abs_mul_le (abs_add_le' (abs_add_le' (abs_mul_le (abs_mul_le b0 (abs_mul_le (abs_mul_le hwa hwa) hwa)) (abs_add_le' (abs_add_le' (abs_mul_le hr hr) (abs_mul_le hr hs)) (abs_mul_le hs hs)))
    (abs_mul_le (abs_mul_le b1 (abs_mul_le hwa hwa)) (abs_add_le' hr hs))) (abs_mul_le b2 hwa)) h) ?_
  norm_num

/-- Reduction, scale and cubic together: `scale * y` is `2^(z w)`. -/
theorem expf_core (md : Mode) (j : ℕ) {z sh a0 a1 a2 : ℕ} {w : ℝ} (hj : j ≤ 10) (hsh : sh = (0x433 - j) * 2 ^ 52 + 2 ^ 51) (hw : (2 : ℝ) ^ (-(j : ℤ)) * w = 1 / 32) (hw0 : 1 / 32 ≤ w) (hw1 : w ≤ 1)
    (f0 : binary64.Finite a0) (f1 : binary64.Finite a1) (f2 : binary64.Finite a2)
    (v0 : binary64.val a0 = binary64.val CC.exp2Cf0 * w ^ 3) (v1 : binary64.val a1 = binary64.val CC.exp2Cf1 * w ^ 2) (v2 : binary64.val a2 = binary64.val CC.exp2Cf2 * w)
    (hz : binary64.Finite z) (hb : |binary64.val z| ≤ 2 ^ 30) (hb2 : |binary64.val z * w| ≤ 300) :
    let ki := binary64.hadd md z sh
    let r := binary64.hsub md z (binary64.hsub md ki sh)
    let y := binary64.hadd md (binary64.hmul md (binary64.hadd md (binary64.hmul md a0 r) a1) (binary64.hmul md r r)) (binary64.hadd md (binary64.hmul md a2 r) 0x3FF0000000000000)
    binary64.Finite (sBitsf ki) ∧ binary64.Finite y ∧
      |binary64.val (sBitsf ki) * binary64.val y - exp (binary64.val z * w * log 2)| ≤ exp (binary64.val z * w * log 2) * (1022 / 1000 * pf md + 1 / 2 ^ 45) := by
  intro ki r y
  obtain ⟨k, k1, k2, k3, k4⟩ := shift64 md j hj (sh := sh) hz hsh hb
  set g : ℝ := (2 : ℝ) ^ (-(j : ℤ)) with hg
  have hg0 : 0 < g := two_zpow_pos _
  have hg1 : g ≤ 1 := by
    have := two_zpow_le (show -(j : ℤ) ≤ 0 by omega)
    rwa [zpow_zero] at this
  have hq := rq_le md
  have hq0 := rq_pos md
  have hw00 : 0 < w := by linarith
  have hu := ru_pos md
  have hu2 := ru_le md
  have hs1 : |binary64.val z - k * g| ≤ 1 := by
    refine le_trans k2 ?_
    have := mul_le_mul hq hg1 hg0.le (by norm_num)
    linarith
  have hsw : |(binary64.val z - k * g) * w| ≤ rq md * (1 / 32) := by
    rw [abs_mul, abs_of_pos hw00, ← hw, ← mul_assoc]
    exact mul_le_mul_of_nonneg_right k2 hw00.le
  have hkb : |k| ≤ 10000 := by
    have e : (k : ℝ) * (1 / 32) = binary64.val z * w - (binary64.val z - k * g) * w := by rw [← hw]; ring
    have h1 : |(k : ℝ) * (1 / 32)| ≤ 300 + 1 / 32 := by
      rw [e]; exact le_trans (abs_sub _ _) (add_le_add hb2 (by linarith))
    rw [abs_mul, abs_of_pos (show (0 : ℝ) < 1 / 32 by norm_num)] at h1
    have h3 : |(k : ℝ)| ≤ 10000 := by linarith
    exact_mod_cast h3
  obtain ⟨sf, s0, s1⟩ := scalef j hj k1 hkb
  have R := binary64.hsub_spec md hz k3
  rw [k4] at R
  obtain ⟨fr, er⟩ := st_err R hs1 (by norm_num)
  have er' : |binary64.val r - (binary64.val z - k * g)| ≤ 1 / 2 ^ 51 := by
    refine le_trans er ?_
    have : ru md * (1 + 1 / 2 ^ 140) ≤ 1 / 2 ^ 52 * (1 + 1 / 2 ^ 140) := mul_le_mul_of_nonneg_right hu2 (by positivity)
    have c : (1 : ℝ) / 2 ^ 52 * (1 + 1 / 2 ^ 140) ≤ 1 / 2 ^ 51 := by norm_num
    linarith
  have hr : |binary64.val r| ≤ 17 / 16 := by
    have := abs_near er' hs1
    have c : (1 : ℝ) + 1 / 2 ^ 51 ≤ 17 / 16 := by norm_num
    linarith
  have B0 : |binary64.val CC.exp2Cf0| ≤ 56 / 1000 := by rw [val_g0, abs_le]; constructor <;> norm_num
  have B1 : |binary64.val CC.exp2Cf1| ≤ 1 / 4 := by rw [val_g1, abs_le]; constructor <;> norm_num
  have B2 : |binary64.val CC.exp2Cf2| ≤ 7 / 10 := by rw [val_g2, abs_le]; constructor <;> norm_num
  have hwa : |w| ≤ 1 := by rw [abs_of_pos hw00]; exact hw1
  have hwn : ∀ n, |w ^ n| ≤ 1 := fun n => by rw [abs_pow]; exact pow_le_one₀ (abs_nonneg _) hwa
  have hrw : |w * binary64.val r| ≤ 33 / 1000 := by
    have e : w * binary64.val r = (binary64.val z - k * g) * w + w * (binary64.val r - (binary64.val z - k * g)) := by ring
    rw [e]
    refine le_trans (abs_add_le' hsw (abs_mul_le hwa er')) ?_
    have : rq md * (1 / 32) ≤ 1 / 32 := by linarith
    have c : (1 : ℝ) / 32 + 1 * (1 / 2 ^ 51) ≤ 33 / 1000 := by norm_num
    linarith
  obtain ⟨fy, ey⟩ := cubic_round md f0 f1 f2 fr (by rw [v0]; exact le_trans (abs_mul_le B0 (hwn 3)) (by norm_num)) (by rw [v1]; exact le_trans (abs_mul_le B1 (hwn 2)) (by norm_num))
    (by rw [v2, mul_assoc]; exact le_trans (abs_mul_le B2 hrw) (by norm_num)) hr (by rw [v0]; exact le_trans (abs_mul_le (abs_mul_le B0 (hwn 3)) hr) (by norm_num))
  refine ⟨sf, fy, ?_⟩
  have hlip := cubic_lip (A0 := binary64.val CC.exp2Cf0) (A1 := binary64.val CC.exp2Cf1) (A2 := binary64.val CC.exp2Cf2) hw00.le hw1 hr (le_trans hs1 (by norm_num))
    (le_trans B0 (by norm_num)) B1 (le_trans B2 (by norm_num)) er'
  have hpoly := expf_poly' md hsw
  rw [v0, v1, v2] at ey
  have hy := abs_tri (abs_tri ey hlip) hpoly
  have hsplit : exp (binary64.val z * w * log 2) = exp (k * (log 2 / 32)) * exp ((binary64.val z - k * g) * w * log 2) := by
    rw [← Real.exp_add]; congr 1
    have : (k : ℝ) * (log 2 / 32) = k * (g * w) * log 2 := by rw [hw]; ring
    rw [this]; ring
  rw [hsplit]
  obtain ⟨l1, l2⟩ := log2_bd
  have hρ : |(binary64.val z - k * g) * w * log 2| ≤ 2167 / 10 ^ 5 := by
    refine le_trans (abs_mul_le (le_trans hsw (show _ ≤ (1 : ℝ) / 32 by linarith)) (show |log 2| ≤ 693148 / 10 ^ 6 by rw [abs_of_pos (by linarith)]; exact l2)) (by norm_num)
  have hP := Real.abs_exp_sub_one_sub_id_le (x := (binary64.val z - k * g) * w * log 2) (le_trans hρ (by norm_num))
  have hsq : ((binary64.val z - k * g) * w * log 2) ^ 2 ≤ (2167 / 10 ^ 5) ^ 2 := by rw [← sq_abs]; exact pow_le_pow_left₀ (abs_nonneg _) hρ 2
  have hρ' := abs_le.1 hρ
  have hP' := abs_le.1 hP
  have hPinv : 1 / exp ((binary64.val z - k * g) * w * log 2) ≤ 1022 / 1000 := by
    rw [one_div, ← Real.exp_neg]
    have h1 := Real.abs_exp_sub_one_sub_id_le (x := -((binary64.val z - k * g) * w * log 2)) (by rw [abs_neg]; exact le_trans hρ (by norm_num))
    rw [neg_sq] at h1
    have := (abs_le.1 h1).2
    have c : (2167 : ℝ) / 10 ^ 5 + (2167 / 10 ^ 5) ^ 2 + 1 ≤ 10222 / 10000 := by norm_num
    have h2 : exp (-((binary64.val z - k * g) * w * log 2)) ≤ exp (2167 / 10 ^ 5) := Real.exp_le_exp.2 (by linarith)
    have h3 := Real.exp_bound' (x := (2167 : ℝ) / 10 ^ 5) (by norm_num) (by norm_num) (n := 3) (by norm_num)
    refine le_trans h2 (le_trans h3 ?_)
    norm_num [Finset.sum_range_succ, Nat.factorial]
  refine expf_comb (Real.exp_pos _) ?_ ?_ (pf_nonneg md) s1 ?_ (pf_le md) hPinv
  · have c : (2167 : ℝ) / 10 ^ 5 + (2167 / 10 ^ 5) ^ 2 ≤ 3 / 100 := by norm_num
    linarith
  · have c : (2167 : ℝ) / 10 ^ 5 + (2167 / 10 ^ 5) ^ 2 ≤ 3 / 100 := by norm_num
    linarith
  · refine le_trans hy ?_
    have c : (1 : ℝ) / 2 ^ 49 + 1 / 2 ^ 48 ≤ 1 / 2 ^ 47 := by norm_num
    linarith

end Verif
