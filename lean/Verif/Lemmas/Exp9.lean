import Verif.Lemmas.Exp8

/-!
# `exp` for doubles: all finite arguments
-/

namespace Verif
open Fmt Real

theorem exp_int_log (n : ℤ) : exp (n * log 2) = (2 : ℝ) ^ n := by
  rw [mul_comm, Real.exp_mul, Real.exp_log (by norm_num), Real.rpow_intCast]
theorem exp_le_zpow {X : ℝ} (n : ℤ) (h : X ≤ n * log 2) : exp X ≤ (2 : ℝ) ^ n := by rw [← exp_int_log]; exact Real.exp_le_exp.2 h
theorem zpow_le_exp {X : ℝ} (n : ℤ) (h : n * log 2 ≤ X) : (2 : ℝ) ^ n ≤ exp X := by rw [← exp_int_log]; exact Real.exp_le_exp.2 h

theorem log2_bd : 693147 / 10 ^ 6 ≤ log 2 ∧ log 2 ≤ 693148 / 10 ^ 6 := by
  obtain ⟨h1, h2⟩ := ln2_bounds
  norm_num at h1 h2
  constructor <;> linarith

/-- the largest double whose exponential is below `2^1024` -/
theorem val_expMax : binary64.val 0x40862E42FEFA39EF = 6243314768165359 / 2 ^ 43 := by
  rw [lit64 false 6243314768165359 43 (by decide +kernel) (by decide +kernel) (by decide +kernel) (by decide +kernel)]
  norm_num [sg]

theorem expMax_log : 6243314768165359 / 2 ^ 43 + 1 / 10 ^ 14 ≤ 1024 * log 2 ∧ 1024 * log 2 + 5 / 10 ^ 14 ≤ 6243314768165360 / 2 ^ 43 := by
  obtain ⟨h1, h2⟩ := ln2_bounds
  norm_num at h1 h2 ⊢
  constructor <;> linarith

theorem k_bounds {X : ℝ} {k : ℤ} (h : |X - k * (log 2 / 128)| ≤ 541523 / 10 ^ 8) :
    (512 ≤ X → 94000 ≤ k) ∧ (X ≤ -512 → k ≤ -94000) ∧ (|X| < 512 → |k| ≤ 94600) := by
  obtain ⟨c1, c2, -⟩ := ln2_consts
  rw [abs_le] at h
  generalize log 2 / 128 = c at *
  refine ⟨fun hX => ?_, fun hX => ?_, fun hX => ?_⟩
  · by_contra hk
    have : (k : ℝ) ≤ 94000 := by exact_mod_cast (show k ≤ 94000 by omega)
    have := mul_le_mul_of_nonneg_right this (show 0 ≤ c by linarith)
    linarith [h.1, h.2]
  · by_contra hk
    have : (-94000 : ℝ) ≤ k := by exact_mod_cast (show -94000 ≤ k by omega)
    have := mul_le_mul_of_nonneg_right this (show 0 ≤ c by linarith)
    linarith [h.1, h.2]
  · rw [abs_lt] at hX
    rw [abs_le]
    constructor
    · by_contra hk
      have : (k : ℝ) ≤ -94600 := by exact_mod_cast (show k ≤ -94600 by omega)
      have := mul_le_mul_of_nonneg_right this (show 0 ≤ c by linarith)
      linarith [h.1, h.2]
    · by_contra hk
      have : (94600 : ℝ) ≤ k := by exact_mod_cast (show 94600 ≤ k by omega)
      have := mul_le_mul_of_nonneg_right this (show 0 ≤ c by linarith)
      linarith [h.1, h.2]

noncomputable def expK (md : Mode) : ℝ := if md = .nearest then 106 / 100 else 13 / 10
noncomputable def expS (md : Mode) : ℝ := if md = .nearest then 102 / 100 else 101 / 100

theorem expK_ge (md : Mode) {X : ℝ} (h : |X| ≤ 1000) : expE md X + 61 / 10 ^ 4 + 999 / 1000 ≤ expK md := by
  have := expE_le' md h
  unfold expK
  split_ifs at this ⊢ <;> linarith
theorem expK_ge1 (md : Mode) : 106 / 100 ≤ expK md := by unfold expK; split_ifs <;> norm_num
theorem expK_le (md : Mode) : expK md ≤ 13 / 10 := by unfold expK; split_ifs <;> norm_num
theorem expS_ge (md : Mode) : 101 / 100 ≤ expS md := by unfold expS; split_ifs <;> norm_num

theorem finite_bexp {x : ℕ} (hx : binary64.Finite x) : binary64.bexp x < 2047 := by
  have h := ((binary64.finite_iff x).1 hx).2
  have hinf : binary64.infMag = 2047 * 2 ^ 52 := by decide +kernel
  rw [hinf] at h
  unfold bexp
  have : binary64.F = 52 := rfl
  rw [this]
  omega

theorem abs_lt_of_bexp {x e : ℕ} (he : 1 ≤ e) (h : binary64.bexp x < e) : |binary64.val x| < (2 : ℝ) ^ ((e : ℤ) - 1023) := by
  by_contra hc
  push Not at hc
  have := (bexp_ge he).2 hc
  omega

/-- scaling by `2^1009` -/
theorem val_p1009 : binary64.Finite 0x7F00000000000000 ∧ binary64.val 0x7F00000000000000 = (2 : ℝ) ^ (1009 : ℤ) := by
  have h := pow2_64 false 1009 (by norm_num) (by norm_num)
  rw [show CC.pow2 binary64 false 1009 = 0x7F00000000000000 by decide +kernel] at h
  simpa [sg] using h
theorem val_m1022 : binary64.Finite 0x0010000000000000 ∧ binary64.val 0x0010000000000000 = (2 : ℝ) ^ (-1022 : ℤ) := by
  have h := pow2_64 false (-1022) (by norm_num) (by norm_num)
  rw [show CC.pow2 binary64 false (-1022) = 0x0010000000000000 by decide +kernel] at h
  refine ⟨h.1, ?_⟩
  rw [h.2]; simp only [sg, Bool.false_eq_true, if_false, one_mul]

/-- the reals of the subnormal path -/
theorem low_final {u A s E K S y w : ℝ} (hu : 0 < u) (hu2 : u ≤ 1 / 2 ^ 52) (hA : 0 < A) (hE : 0 ≤ E)
    (h : |y - w| ≤ u * (1 + s * (60 / 10 ^ 4) + 1 / 2 ^ 48) ∨ (1 - 1 / 2 ^ 40 ≤ w ∧ |y - w| ≤ u * (2 + s * (60 / 10 ^ 4) + 1 / 2 ^ 48)))
    (hw : |w - A| ≤ u * (A * E)) (hs : s * (994 / 1000) ≤ A) (hs0 : 0 < s) (hK : 106 / 100 ≤ K) (hS : 101 / 100 ≤ S)
    (hfar : E + 61 / 10 ^ 4 + 999 / 1000 ≤ K ∨ (A ≤ 1 / 1000 ∧ A * E ≤ 1 / 1000)) (hE2 : E ≤ 1200) :
    |y - A| ≤ u * (K * A + S) := by
  have hs1 : s * (60 / 10 ^ 4) ≤ A * (61 / 10 ^ 4) := by linarith
  have c1 : (1 : ℝ) / 2 ^ 48 ≤ 1 / 10 ^ 6 := by norm_num
  have key : ∀ c : ℝ, |y - w| ≤ u * (c + s * (60 / 10 ^ 4) + 1 / 2 ^ 48) → c + A * (61 / 10 ^ 4) + 1 / 10 ^ 6 + A * E ≤ K * A + S → |y - A| ≤ u * (K * A + S) := by
    intro c h1 h2
    refine le_trans (abs_tri h1 hw) ?_
    rw [← mul_add]
    exact mul_le_mul_of_nonneg_left (by linarith) hu.le
  rcases hfar with hf | ⟨hf1, hf2⟩
  · have hKA : E * A + 61 / 10 ^ 4 * A + 999 / 1000 * A ≤ K * A := by
      have := mul_le_mul_of_nonneg_right hf hA.le
      linarith
    rcases h with h | ⟨h1, h⟩
    · exact key 1 h (by linarith)
    · refine key 2 h ?_
      have h3 : u * (A * E) ≤ 1 / 2 ^ 52 * (A * 1200) := mul_le_mul hu2 (mul_le_mul_of_nonneg_left hE2 hA.le) (by positivity) (by positivity)
      have h4 : (1 : ℝ) / 2 ^ 52 * (A * 1200) ≤ A * (1 / 10 ^ 5) := by
        have : (1 : ℝ) / 2 ^ 52 * 1200 ≤ 1 / 10 ^ 5 := by norm_num
        have := mul_le_mul_of_nonneg_left this hA.le
        linarith
      have h5 := (abs_le.1 hw).2
      have h6 : (1 : ℝ) / 2 ^ 40 ≤ 1 / 10 ^ 5 := by norm_num
      linarith
  · have hKA : 0 ≤ K * A := by positivity
    rcases h with h | ⟨h1, h⟩
    · exact key 1 h (by linarith)
    · exfalso
      have h3 : u * (A * E) ≤ 1 * (1 / 1000) := mul_le_mul (le_trans hu2 (by norm_num)) hf2 (by positivity) (by norm_num)
      have h5 := (abs_le.1 hw).2
      have h6 : (1 : ℝ) / 2 ^ 40 ≤ 1 / 10 ^ 5 := by norm_num
      linarith

theorem n_le_two {u n M R η : ℝ} (hu : 0 < u) (hu2 : u ≤ 1 / 2 ^ 52) (hn : 0 < n) (h1 : |M| ≤ n * (58 / 10000)) (h2 : η ≤ u * (n * (1 / 10 ^ 9)))
    (h3 : |R - (n + M)| ≤ u * |n + M| + η) (hR : R < 1) : n ≤ 2 := by
  rw [abs_le] at h1
  have h4 : |n + M| ≤ n * 2 := by rw [abs_le]; constructor <;> linarith
  have h5 : u * |n + M| ≤ 1 / 2 ^ 52 * (n * 2) := mul_le_mul hu2 h4 (abs_nonneg _) (by positivity)
  have h6 : u * (n * (1 / 10 ^ 9)) ≤ 1 / 2 ^ 52 * (n * (1 / 10 ^ 9)) := mul_le_mul_of_nonneg_right hu2 (by positivity)
  have h7 : 1 / 2 ^ 52 * (n * 2) + 1 / 2 ^ 52 * (n * (1 / 10 ^ 9)) ≤ n * (1 / 10) := by
    have : (1 : ℝ) / 2 ^ 52 * 2 + 1 / 2 ^ 52 * (1 / 10 ^ 9) ≤ 1 / 10 := by norm_num
    have := mul_le_mul_of_nonneg_left this hn.le
    linarith
  rw [abs_le] at h3
  linarith [h3.1]

theorem hf_of_ge {u A E K R : ℝ} (hu2 : u ≤ 1 / 2 ^ 52) (hA : 0 < A) (hE : 0 ≤ E) (hE2 : E ≤ 1200) (h : |R - A| ≤ u * (A * (1 + E + 6 / 10 ^ 5))) (hR : 1 ≤ R)
    (hf : E + 61 / 10 ^ 4 + 999 / 1000 ≤ K ∨ (A ≤ 1 / 1000 ∧ A * E ≤ 1 / 1000)) : E + 61 / 10 ^ 4 + 999 / 1000 ≤ K := by
  rcases hf with hf | ⟨h1, -⟩
  · exact hf
  · exfalso
    have h3 : u * (A * (1 + E + 6 / 10 ^ 5)) ≤ 1 / 2 ^ 52 * (A * 1300) := mul_le_mul hu2 (mul_le_mul_of_nonneg_left (by linarith) hA.le) (by positivity) (by positivity)
    have h4 : (1 : ℝ) / 2 ^ 52 * (A * 1300) ≤ A * (1 / 10 ^ 5) := by
      have : (1 : ℝ) / 2 ^ 52 * 1300 ≤ 1 / 10 ^ 5 := by norm_num
      have := mul_le_mul_of_nonneg_left this hA.le
      linarith
    have h5 := (abs_le.1 h).2
    linarith

theorem far_neg {X : ℝ} (h : X ≤ -512) (hf : 1000 < |X|) : exp X * (2 : ℝ) ^ (1022 : ℤ) ≤ 1 / 2 ^ 100 := by
  rw [abs_of_neg (by linarith)] at hf
  have := exp_le_zpow (X := X) (-1400) (by have := log2_bd.2; push_cast; linarith)
  calc _ ≤ (2 : ℝ) ^ (-1400 : ℤ) * 2 ^ (1022 : ℤ) := mul_le_mul_of_nonneg_right this (two_zpow_pos _).le
    _ = (2 : ℝ) ^ (-378 : ℤ) := by rw [← zpow_add₀ (by norm_num)]; rfl
    _ ≤ (2 : ℝ) ^ (-100 : ℤ) := two_zpow_le (by norm_num)
    _ = _ := by rw [zpow_neg, one_div]; norm_cast

/-- `handle_special_case` with a negative exponent -/
theorem special_neg_gen (md : Mode) {X E K : ℝ} {k : ℤ} {ki tmp big scl : ℕ} (j : ℕ) (hj : j ≤ 10) (p2 : (ki : ℤ) = (0x433 - j) * 2 ^ 52 + 2 ^ 51 + k)
    (p3 : |k| ≤ 189098) (hk : k ≤ -94000) (p5 : CoreOk md X k tmp E) (hE0 : 0 ≤ E) (hE1 : E ≤ 1200) (hK : 106 / 100 ≤ K)
    (hfar' : E + 61 / 10 ^ 4 + 999 / 1000 ≤ K ∨ (exp X * (2 : ℝ) ^ (1022 : ℤ) ≤ 1 / 1000 ∧ exp X * (2 : ℝ) ^ (1022 : ℤ) * E ≤ 1 / 1000)) :
    binary64.Finite (CC.expSpecial big scl md tmp (sBits ki) ki) ∧ 0 ≤ binary64.val (CC.expSpecial big scl md tmp (sBits ki) ki) ∧
      |binary64.val (CC.expSpecial big scl md tmp (sBits ki) ki) - exp X| ≤ ru md * (K * exp X + expS md * 2 ^ (-1022 : ℤ)) := by
  have hsb := sBits_mod (ki := ki) (k := k) j hj p2
  have hk2 := (abs_le.1 p3).1
  have hn : ((((sBits ki + 1022 * 2 ^ 52) % 2 ^ 64 : ℕ)) : ℤ) = ((1022 + k / 128 + 1022) * 2 ^ 52 + tabH (kIdx k)) % 2 ^ 64 := by
    have : ((sBits ki + 1022 * 2 ^ 52 : ℕ) : ℤ) = (sBits ki : ℤ) + 1022 * 2 ^ 52 := by push_cast; rfl
    omega
  obtain ⟨q1, q2, q3, q4, q5, q6, q7, q8, q9, q10, q11⟩ := p5 _ 1022 hn (by omega) (Or.inl (by omega))
  unfold CC.expSpecial
  rw [if_neg (by rw [ki_sign j hj p2 p3]; omega)]
  simp only []
  generalize (sBits ki + 1022 * 2 ^ 52) % 2 ^ 64 = n at *
  have hu := ru_pos md
  have hu2 := ru_le md
  have hEx := Real.exp_pos X
  have hA0 : 0 < exp X * (2 : ℝ) ^ (1022 : ℤ) := mul_pos hEx (two_zpow_pos _)
  have hAx : exp X * (2 : ℝ) ^ (1022 : ℤ) * 2 ^ (-1022 : ℤ) = exp X := by
    rw [mul_assoc, ← zpow_add₀ (by norm_num)]; norm_num
  generalize exp X = ex at *
  generalize hAdef : ex * (2 : ℝ) ^ (1022 : ℤ) = A at *
  have f1 : binary64.Finite 0x3FF0000000000000 := by decide +kernel
  obtain ⟨fm, vm⟩ := val_m1022
  have hp22 := two_zpow_pos (-1022)
  by_cases hlt : binary64.val (binary64.hadd md n (binary64.hmul md n tmp)) < 1
  · rw [if_pos (by rw [CC.hlt_finite binary64 q3 f1, val_one64]; exact hlt)]
    obtain ⟨y, y1, y2, y3, y4, y5, y6⟩ := exp_low md q1 q2 q3 q4 (n_le_two hu hu2 q4 q7 q8 q9 hlt) q7 q8 q9 hlt
    rw [y1]
    have hz : binary64.Finite (if binary64.heq y 0 then 0 else y) ∧ binary64.val (if binary64.heq y 0 then 0 else y) = binary64.val y := by
      have f0 : binary64.Finite 0 := by decide +kernel
      have v0 : binary64.val 0 = 0 := (binary64.val_eq_zero_iff _).2 (by decide +kernel)
      split_ifs with hy
      · rw [CC.heq_finite binary64 y2 f0] at hy
        exact ⟨f0, hy.symm⟩
      · exact ⟨y2, rfl⟩
    generalize (if binary64.heq y 0 then 0 else y) = z at *
    have R := binary64.hmul_spec md fm hz.1
    rw [hz.2, vm] at R
    have hmul : Mult (-1074) ((2 : ℝ) ^ (-1022 : ℤ) * binary64.val y) := by
      obtain ⟨a, ha⟩ := y4
      refine ⟨a, ?_⟩
      rw [ha, show (-1074 : ℤ) = -1022 + -52 from rfl, zpow_add₀ (by norm_num)]; ring
    have hle : |(2 : ℝ) ^ (-1022 : ℤ) * binary64.val y| ≤ (2 : ℝ) ^ (-1021 : ℤ) := by
      rw [abs_of_nonneg (mul_nonneg hp22.le y3), show (-1021 : ℤ) = -1022 + 1 from rfl, zpow_add₀ (by norm_num), zpow_one]
      exact mul_le_mul_of_nonneg_left (by linarith) hp22.le
    obtain ⟨fr, er⟩ := ex64 (-1074) R hmul (by norm_num) (by exact hle) (le_trans hle (by
      refine le_trans (two_zpow_le (show (-1021 : ℤ) ≤ 0 by norm_num)) ?_; rw [zpow_zero]; norm_num))
    refine ⟨fr, by rw [er]; exact mul_nonneg hp22.le y3, ?_⟩
    rw [er]
    have key := low_final hu hu2 hA0 hE0 y6 q10 q5 q4 hK (expS_ge md) hfar' hE1
    have e1 : (2 : ℝ) ^ (-1022 : ℤ) * binary64.val y - ex = 2 ^ (-1022 : ℤ) * (binary64.val y - A) := by rw [← hAx]; ring
    rw [e1, abs_mul, abs_of_pos hp22]
    refine le_trans (mul_le_mul_of_nonneg_left key hp22.le) (le_of_eq ?_)
    rw [← hAx]; ring
  · rw [if_neg (by rw [CC.hlt_finite binary64 q3 f1, val_one64]; exact hlt)]
    push Not at hlt
    have hfn := hf_of_ge hu2 hA0 hE0 hE1 q11 hlt hfar'
    generalize binary64.hadd md n (binary64.hmul md n tmp) = R at *
    obtain ⟨b, b1, b2, -⟩ := binary64.scale_exact (x := R) (k := -1022) (Or.inr (by
      rw [abs_of_nonneg (mul_nonneg (by linarith) hp22.le)]
      have : binary64.minNormal = (2 : ℝ) ^ (-1022 : ℤ) := rfl
      rw [this]
      exact le_mul_of_one_le_left hp22.le hlt)) (by
      have h1 := binary64.abs_val_lt_huge q3
      rw [abs_mul, abs_of_pos hp22]
      refine lt_of_le_of_lt (mul_le_of_le_one_right (abs_nonneg _) ?_) h1
      have := two_zpow_le (show (-1022 : ℤ) ≤ 0 by norm_num)
      rwa [zpow_zero] at this)
    have hS := binary64.hmul_spec md fm q3
    rw [vm] at hS
    obtain ⟨fr, er⟩ := RoundsTo.exact binary64 b1 (by rw [b2]; ring) hS
    refine ⟨fr, by rw [er]; exact mul_nonneg hp22.le (by linarith), ?_⟩
    rw [er]
    have e1 : (2 : ℝ) ^ (-1022 : ℤ) * binary64.val R - ex = 2 ^ (-1022 : ℤ) * (binary64.val R - A) := by rw [← hAx]; ring
    rw [e1, abs_mul, abs_of_pos hp22]
    refine le_trans (mul_le_mul_of_nonneg_left q11 hp22.le) ?_
    have h3 : A * (1 + E + 6 / 10 ^ 5) ≤ A * K := mul_le_mul_of_nonneg_left (by linarith) hA0.le
    have h4 := mul_le_mul_of_nonneg_left (mul_le_mul_of_nonneg_left h3 hu.le) hp22.le
    have h5 : 0 ≤ ru md * (expS md * 2 ^ (-1022 : ℤ)) := mul_nonneg hu.le (mul_nonneg (by have := expS_ge md; linarith) hp22.le)
    have h6 : (2 : ℝ) ^ (-1022 : ℤ) * (ru md * (A * K)) = ru md * (K * ex) := by rw [← hAx]; ring
    rw [mul_add]
    linarith

/-- arguments below −512: `handle_special_case` with a negative exponent -/
theorem exp_special_neg (md : Mode) {x : ℕ} (hx : binary64.Finite x) (hb : |binary64.val x| ≤ 1024) (h : binary64.val x ≤ -512) :
    ∃ tmp sb ki, CC.expParts md x = (tmp, sb, ki) ∧
      binary64.Finite (CC.expSpecial 1009 0x7F00000000000000 md tmp sb ki) ∧ 0 ≤ binary64.val (CC.expSpecial 1009 0x7F00000000000000 md tmp sb ki) ∧
      |binary64.val (CC.expSpecial 1009 0x7F00000000000000 md tmp sb ki) - exp (binary64.val x)| ≤
        ru md * (expK md * exp (binary64.val x) + expS md * 2 ^ (-1022 : ℤ)) := by
  obtain ⟨k, ki, tmp, p1, p2, p3, p4, p5⟩ := exp_core md hx hb
  have hk := (k_bounds p4).2.1 h
  refine ⟨tmp, sBits ki, ki, p1, ?_⟩
  have hE0 := expE_nonneg md (binary64.val x)
  have hE1 := expE_le md (binary64.val x)
  have hfar : 1000 < |binary64.val x| → exp (binary64.val x) * (2 : ℝ) ^ (1022 : ℤ) ≤ 1 / 2 ^ 100 := fun hf => far_neg h hf
  refine special_neg_gen md 0 (by norm_num) (by simpa using p2) p3 hk p5 hE0 hE1 (expK_ge1 md) ?_
  rcases le_or_gt |binary64.val x| 1000 with hc | hc
  · exact Or.inl (expK_ge md hc)
  · have h1 := hfar hc
    refine Or.inr ⟨le_trans h1 (by norm_num), ?_⟩
    refine le_trans (mul_le_mul h1 hE1 hE0 (by positivity)) (by norm_num)

end Verif
