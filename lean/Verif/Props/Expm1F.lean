import Verif.Lemmas.Expm1F
import Verif.Props.ExpF
import Verif.Props.Expm1

/-!
# C67: `expm1(float)`
-/

namespace Verif
open Fmt Real

theorem val_two32' : binary32.val 0x40000000 = 2 := by
  rw [lit32 false (2 ^ 23) 22 (by decide +kernel) (by decide +kernel) (by decide +kernel) (by decide +kernel)]
  norm_num [sg]

theorem m1f_small_aux {u X s η : ℝ} (hu : 0 < u) (hu3 : 1 / 2 ^ 24 ≤ u) (hX : |X| ≤ 1 / 16) (h : |s - (exp X - 1)| ≤ u * (|X| * (1 + 24 / 10 * |X|)) + |X| ^ 7 * (8 / 35280) + η) :
    |s - (exp X - 1)| ≤ 145 / 100 * u * |exp X - 1| + η := by
  have h0 := abs_nonneg X
  have h1 := m1_id_le (X := X) (by linarith)
  have h2 : |X| ^ 2 ≤ 1 / 16 * |X| := by rw [sq]; exact mul_le_mul_of_nonneg_right hX h0
  have h3 : |X| * (953 / 1000) ≤ |exp X - 1| := by
    have h4 : |X| - |exp X - 1| ≤ |X - (exp X - 1)| := abs_sub_abs_le_abs_sub _ _
    rw [show X - (exp X - 1) = -(exp X - 1 - X) by ring, abs_neg] at h4
    linarith
  have h5 : |X| ^ 7 * (8 / 35280) ≤ u * (|X| * (1 / 1000)) := by
    have h6 : |X| ^ 6 ≤ (1 / 16) ^ 6 := pow_le_pow_left₀ h0 hX 6
    have h7 : |X| ^ 6 * (8 / 35280) ≤ 1 / 2 ^ 24 * (1 / 1000) := by
      refine le_trans (mul_le_mul_of_nonneg_right h6 (by norm_num)) (by norm_num)
    have h8 := mul_le_mul_of_nonneg_left h7 h0
    have h9 := mul_le_mul_of_nonneg_right hu3 (show 0 ≤ |X| * (1 / 1000) by positivity)
    have e : |X| ^ 7 * (8 / 35280) = |X| * (|X| ^ 6 * (8 / 35280)) := by ring
    rw [e]; linarith
  have h10 : u * (|X| * (1 + 24 / 10 * |X|)) ≤ u * (|X| * (115 / 100)) := mul_le_mul_of_nonneg_left (mul_le_mul_of_nonneg_left (by linarith) h0) hu.le
  have h11 := mul_le_mul_of_nonneg_left h3 hu.le
  have h12 : 0 ≤ u * |X| := by positivity
  linarith

theorem m1f_mid_aux {u Z t a r η : ℝ} (hu : 0 < u) (hu2 : u ≤ 1 / 2 ^ 23) (hu3 : 1 / 2 ^ 24 ≤ u) (hη0 : 0 ≤ η) (hη : η ≤ 1 / 2 ^ 100) (hZ : |Z| ≤ 1 / 8) (hZ2 : 1 / 32 ≤ |Z|)
    (h : |t - (exp Z - 1)| ≤ u * (|Z| * (1 + 24 / 10 * |Z|)) + |Z| ^ 7 * (8 / 35280) + 4 * η) (ha : |a - (t + 2)| ≤ u * |t + 2| + η) (hr : |r - t * a| ≤ u * |t * a| + η) :
    |r - (exp (2 * Z) - 1)| ≤ 4 * u * |exp (2 * Z) - 1| := by
  have h0 := abs_nonneg Z
  have h1 := m1_id_le (X := Z) (by linarith)
  have h2 : |Z| ^ 2 ≤ 1 / 8 * |Z| := by rw [sq]; exact mul_le_mul_of_nonneg_right hZ h0
  set T := exp Z - 1 with hT
  have h3 : |Z| * (906 / 1000) ≤ |T| := by
    have h4 : |Z| - |T| ≤ |Z - T| := abs_sub_abs_le_abs_sub _ _
    rw [show Z - T = -(T - Z) by ring, abs_neg] at h4
    linarith
  have h3' : |T| ≤ 138 / 1000 := by
    have := abs_near h1 (le_refl |Z|)
    linarith
  have hη' : 4 * η ≤ u * (|Z| * (1 / 1000)) := by
    have := mul_le_mul hu3 (mul_le_mul_of_nonneg_right hZ2 (show (0 : ℝ) ≤ 1 / 1000 by norm_num)) (by norm_num) hu.le
    have c : (4 : ℝ) * (1 / 2 ^ 100) ≤ 1 / 2 ^ 24 * (1 / 32 * (1 / 1000)) := by norm_num
    linarith
  have hd : |t - T| ≤ u * (|Z| * (1316 / 1000)) := by
    have h6 : |Z| ^ 6 ≤ (1 / 8) ^ 6 := pow_le_pow_left₀ h0 hZ 6
    have h7 : |Z| ^ 6 * (8 / 35280) ≤ 1 / 2 ^ 24 * (15 / 1000) := by
      refine le_trans (mul_le_mul_of_nonneg_right h6 (by norm_num)) (by norm_num)
    have h8 := mul_le_mul_of_nonneg_left h7 h0
    have h9 := mul_le_mul_of_nonneg_right hu3 (show 0 ≤ |Z| * (15 / 1000) by positivity)
    have e : |Z| ^ 7 * (8 / 35280) = |Z| * (|Z| ^ 6 * (8 / 35280)) := by ring
    rw [e] at h
    have h10 : u * (|Z| * (1 + 24 / 10 * |Z|)) ≤ u * (|Z| * (13 / 10)) := mul_le_mul_of_nonneg_left (mul_le_mul_of_nonneg_left (by linarith) h0) hu.le
    linarith
  have hd2 : |t - T| ≤ u * (|T| * (1453 / 1000)) := by
    refine le_trans hd (mul_le_mul_of_nonneg_left ?_ hu.le)
    linarith
  have hT0 : 0 < |T| := by linarith
  have hut : u * (|T| * (1453 / 1000)) ≤ 1 / 10 ^ 4 := by
    have := mul_le_mul hu2 (show |T| * (1453 / 1000) ≤ 300 by linarith) (by positivity) (by positivity)
    have c : (1 : ℝ) / 2 ^ 23 * 300 ≤ 1 / 10 ^ 4 := by norm_num
    linarith
  have hu1 : u ≤ 1 / 10 ^ 6 := le_trans hu2 (by norm_num)
  have hη1 : η ≤ 1 / 10 ^ 6 := le_trans hη (by norm_num)
  have hTb := abs_le.1 h3'
  have hdb := abs_le.1 hd2
  have ht2 : |t + 2| ≤ 214 / 100 := by rw [abs_le]; constructor <;> linarith
  have h12 : u * |t + 2| ≤ u * (214 / 100) := mul_le_mul_of_nonneg_left ht2 hu.le
  have hη3 : η ≤ u * (1 / 1000) := by
    have := mul_le_mul_of_nonneg_right hu3 (show (0 : ℝ) ≤ 1 / 1000 by norm_num)
    have c : (1 : ℝ) / 2 ^ 100 ≤ 1 / 2 ^ 24 * (1 / 1000) := by norm_num
    linarith
  have ha2 : |a - (t + 2)| ≤ u * (215 / 100) := by linarith
  have hab : |a| ≤ 215 / 100 := by
    have := abs_near ha2 ht2; linarith
  have htb : |t| ≤ |T| * (101 / 100) := by
    have h13 := abs_near hd2 (le_refl |T|)
    have h14 : u * (|T| * (1453 / 1000)) ≤ 1 / 10 ^ 6 * (|T| * (1453 / 1000)) := mul_le_mul_of_nonneg_right hu1 (by positivity)
    linarith
  have hta : |t * a| ≤ |T| * (101 / 100) * (215 / 100) := abs_mul_le htb hab
  have hr2 : |r - t * a| ≤ u * (|T| * (2172 / 1000)) + η := by
    have := mul_le_mul_of_nonneg_left hta hu.le
    linarith
  -- target
  have e1 : exp (2 * Z) - 1 = T * (T + 2) := by
    rw [hT, two_mul, Real.exp_add]; ring
  rw [e1]
  have e2 : r - T * (T + 2) = (r - t * a) + t * (a - (t + 2)) + (t - T) * (t + T + 2) := by ring
  have h20 : |t * (a - (t + 2))| ≤ |T| * (101 / 100) * (u * (215 / 100)) := abs_mul_le htb ha2
  have hTT : 186 / 100 ≤ |T + 2| := by rw [abs_of_pos (by linarith)]; linarith
  have h21 : |t + T + 2| ≤ |T + 2| * (1075 / 1000) := by
    rw [abs_of_pos (show 0 < t + T + 2 by linarith), abs_of_pos (show 0 < T + 2 by linarith)]
    linarith
  have h22 : |(t - T) * (t + T + 2)| ≤ u * (|T| * (1453 / 1000)) * (|T + 2| * (1075 / 1000)) := abs_mul_le hd2 h21
  rw [e2, abs_mul]
  have h23 : η ≤ u * (|T| * (1 / 10)) := by
    have : |Z| * (1 / 1000) ≤ |T| * (1 / 100) := by linarith
    have := mul_le_mul_of_nonneg_left this hu.le
    have : 0 ≤ u * |T| := by positivity
    linarith
  have h24 : |r - t * a + t * (a - (t + 2)) + (t - T) * (t + T + 2)| ≤ u * |T| * (45 / 10) + u * (|T| * (1453 / 1000)) * (|T + 2| * (1075 / 1000)) := by
    refine le_trans (abs_add_le' (abs_add_le' hr2 h20) h22) ?_
    have : 0 ≤ u * |T| := by positivity
    linarith
  refine le_trans h24 ?_
  have h25 : u * |T| * (45 / 10) ≤ u * |T| * (|T + 2| * (242 / 100)) := mul_le_mul_of_nonneg_left (by linarith) (by positivity)
  have h26 : 0 ≤ u * |T| * |T + 2| := by positivity
  linarith

theorem valf_q14 : binary32.val 0x3E800000 = 1 / 4 ∧ binary32.val 0xBE800000 = -(1 / 4) ∧ binary32.val 0x3D800000 = 1 / 16 ∧ binary32.val 0xBD800000 = -(1 / 16) := by
  refine ⟨?_, ?_, ?_, ?_⟩
  · rw [lit32 false (2 ^ 23) 25 (by decide +kernel) (by decide +kernel) (by decide +kernel) (by decide +kernel)]; norm_num [sg]
  · rw [lit32 true (2 ^ 23) 25 (by decide +kernel) (by decide +kernel) (by decide +kernel) (by decide +kernel)]; norm_num [sg]
  · rw [lit32 false (2 ^ 23) 27 (by decide +kernel) (by decide +kernel) (by decide +kernel) (by decide +kernel)]; norm_num [sg]
  · rw [lit32 true (2 ^ 23) 27 (by decide +kernel) (by decide +kernel) (by decide +kernel) (by decide +kernel)]; norm_num [sg]

theorem heqf_inf_false {x : ℕ} (hx : binary32.Finite x) (s : Bool) : binary32.heq x (binary32.inf s) = false := by
  have h := ((binary32.finite_iff x).1 hx).2
  have e1 : binary32.key (binary32.inf true) = -(binary32.infMag : ℤ) := by decide +kernel
  have e2 : binary32.key (binary32.inf false) = (binary32.infMag : ℤ) := by decide +kernel
  unfold heq
  simp only [Bool.and_eq_false_iff, decide_eq_false_iff_not]
  right
  intro hk
  have h' : (binary32.mag x : ℤ) < binary32.infMag := by exact_mod_cast h
  have hb : |binary32.key x| < binary32.infMag := by
    unfold key
    split_ifs
    · rw [abs_neg, Nat.abs_cast]; exact h'
    · rw [Nat.abs_cast]; exact h'
  rw [hk] at hb
  cases s
  · rw [e2, Nat.abs_cast] at hb; exact lt_irrefl _ hb
  · rw [e1, abs_neg, Nat.abs_cast] at hb; exact lt_irrefl _ hb

/-- `expm1_double_impl` by size of a finite argument -/
theorem expm1Float_finite (md : Mode) {x : ℕ} (hx : binary32.Finite x) :
    (binary32.val x = 0 → CC.expm1Float md x = x) ∧
    (1 / 4 ≤ |binary32.val x| → CC.expm1Float md x = CC.expm1Kernelf md x) ∧
    (1 / 16 < |binary32.val x| → |binary32.val x| < 1 / 4 → CC.expm1Float md x =
      binary32.hmul md (CC.expm1Seriesf md (binary32.hmul md x 0x3F000000)) (binary32.hadd md (CC.expm1Seriesf md (binary32.hmul md x 0x3F000000)) 0x40000000)) ∧
    (binary32.val x ≠ 0 → |binary32.val x| ≤ 1 / 16 → CC.expm1Float md x = CC.expm1Seriesf md x) := by
  have f0 : binary32.Finite 0 := by decide +kernel
  have v0 : binary32.val 0 = 0 := (binary32.val_eq_zero_iff _).2 (by decide +kernel)
  obtain ⟨q1, q2, q3, q4⟩ := valf_q14
  have g1 : binary32.Finite 0x3E800000 := by decide +kernel
  have g2 : binary32.Finite 0xBE800000 := by decide +kernel
  have g3 : binary32.Finite 0x3D800000 := by decide +kernel
  have g4 : binary32.Finite 0xBD800000 := by decide +kernel
  have c0 : binary32.heq x 0 = true ↔ binary32.val x = 0 := by rw [CC.heq_finite binary32 hx f0, v0]
  have c1 : (binary32.hge x 0x3E800000 = true ∨ binary32.hle x 0xBE800000 = true) ↔ 1 / 4 ≤ |binary32.val x| := by
    unfold hge
    rw [CC.hle_finite binary32 g1 hx, CC.hle_finite binary32 hx g2, q1, q2, le_abs, le_neg]
  have c2 : (binary32.hgt x 0x3D800000 = true ∨ binary32.hlt x 0xBD800000 = true) ↔ 1 / 16 < |binary32.val x| := by
    unfold hgt
    rw [CC.hlt_finite binary32 g3 hx, CC.hlt_finite binary32 hx g4, q3, q4, lt_abs, lt_neg]
  have key : CC.expm1Float md x = if binary32.val x = 0 then x else if 1 / 4 ≤ |binary32.val x| then CC.expm1Kernelf md x else
      if 1 / 16 < |binary32.val x| then binary32.hmul md (CC.expm1Seriesf md (binary32.hmul md x 0x3F000000)) (binary32.hadd md (CC.expm1Seriesf md (binary32.hmul md x 0x3F000000)) 0x40000000)
      else CC.expm1Seriesf md x := by
    unfold CC.expm1Float
    simp only [heqf_inf_false hx, c0, c1, c2, CC.isnan_eq, (binary32.finite_B hx).1, Bool.false_eq_true, if_false]
  rw [key]
  refine ⟨fun h => by rw [if_pos h], fun h => ?_, fun h h' => ?_, fun h h' => ?_⟩
  · rw [if_neg (by intro hc; rw [hc] at h; norm_num at h), if_pos h]
  · rw [if_neg (by intro hc; rw [hc] at h; norm_num at h), if_neg (by linarith), if_pos h]
  · rw [if_neg h, if_neg (by linarith), if_neg (by linarith)]

theorem m1f_mid (md : Mode) {x : ℕ} (hx : binary32.Finite x) (h1 : 1 / 16 < |binary32.val x|) (h2 : |binary32.val x| < 1 / 4) :
    binary32.Finite (CC.expm1Float md x) ∧
      |binary32.val (CC.expm1Float md x) - (exp (binary32.val x) - 1)| ≤ 4 * ruf md * |exp (binary32.val x) - 1| := by
  rw [(expm1Float_finite md hx).2.2.1 h1 h2]
  have fh : binary32.Finite 0x3F000000 := by decide +kernel
  have f2 : binary32.Finite 0x40000000 := by decide +kernel
  have R0 := binary32.hmul_spec md hx fh
  rw [val_half32'] at R0
  have hce : -27 ≤ binary32.ce x := binary32.le_ce_of (by
    have e : (2 : ℝ) ^ ((-27 : ℤ) + (binary32.F : ℤ)) = 1 / 16 := by
      rw [show (-27 : ℤ) + (binary32.F : ℤ) = -4 from rfl]; norm_num
    rw [e]; exact h1.le)
  have hab := abs_lt.1 h2
  have hhalf : |binary32.val x * (1 / 2)| = |binary32.val x| / 2 := by rw [abs_mul, abs_of_pos (show (0 : ℝ) < 1 / 2 by norm_num)]; ring
  obtain ⟨fz, ez⟩ := ex32 (binary32.ce x - 1) R0 (by
    obtain ⟨a, ha⟩ := binary32.mult_ce x
    refine ⟨a, ?_⟩
    rw [ha, sub_eq_add_neg, zpow_add₀ (by norm_num)]; norm_num; ring) (by omega) (by
    have h3 := binary32.abs_val_lt_ce x
    have e : binary32.ce x + (binary32.F : ℤ) + 1 = 1 + (binary32.ce x - 1 + 24) := by
      have : (binary32.F : ℤ) = 23 := rfl
      omega
    rw [e, zpow_add₀ (by norm_num), zpow_one] at h3
    rw [hhalf]; linarith) (by
    rw [hhalf]
    have : (1 : ℝ) ≤ 2 ^ 100 := by norm_num
    linarith)
  generalize binary32.hmul md x 0x3F000000 = z at fz ez ⊢
  have hz : |binary32.val z| = |binary32.val x| / 2 := by rw [ez, hhalf]
  obtain ⟨ft, et⟩ := m1f_series md fz (by rw [hz]; linarith)
  have ex2 : binary32.val x = 2 * binary32.val z := by rw [ez]; ring
  have hu := ruf_pos md
  have hu2 := ruf_le md
  have hη := etaf_le
  have hz8 : |binary32.val z| ≤ 1 / 8 := by rw [hz]; linarith
  have hz0 := abs_nonneg (binary32.val z)
  have ht : |binary32.val (CC.expm1Seriesf md z)| ≤ 1 := by
    have a1 := m1_id_le (X := binary32.val z) (by linarith)
    have a2 : |binary32.val z| ^ 2 ≤ 1 := pow_le_one₀ hz0 (by linarith)
    have a3 : |binary32.val z| ^ 7 ≤ 1 := pow_le_one₀ hz0 (by linarith)
    have a4 : ruf md * (|binary32.val z| * (1 + 24 / 10 * |binary32.val z|)) ≤ 1 / 2 ^ 23 * (1 / 8 * 2) :=
      mul_le_mul hu2 (mul_le_mul hz8 (by linarith) (by linarith) (by norm_num)) (by positivity) (by positivity)
    have a5 : |exp (binary32.val z) - 1| ≤ 9 / 10 := by
      have := abs_near a1 (le_refl |binary32.val z|)
      have a2 : |binary32.val z| ^ 2 ≤ 1 / 8 ^ 2 := by
        have := pow_le_pow_left₀ hz0 hz8 2
        norm_num at this ⊢; linarith
      linarith
    have := abs_near et a5
    have c1 : (1 : ℝ) / 2 ^ 23 * (1 / 8 * 2) ≤ 1 / 100 := by norm_num
    have c2 : (4 : ℝ) * (1 / 2 ^ 100) ≤ 1 / 100 := by norm_num
    linarith
  have c200 : (100 : ℝ) ≤ 2 ^ 100 := by norm_num
  have b1 : |binary32.val (CC.expm1Seriesf md z) + 2| ≤ 3 := le_trans (abs_add_le' ht (le_of_eq (abs_of_pos (show (0 : ℝ) < 2 by norm_num)))) (by norm_num)
  obtain ⟨fa, ea⟩ := add32_err md ft f2 (by rw [val_two32']; linarith)
  rw [val_two32'] at ea
  have b2 : |binary32.val (binary32.hadd md (CC.expm1Seriesf md z) 0x40000000)| ≤ 10 := by
    have := abs_near ea b1
    have c1 : ruf md * |binary32.val (CC.expm1Seriesf md z) + 2| ≤ 1 / 2 ^ 23 * 3 := mul_le_mul hu2 b1 (abs_nonneg _) (by positivity)
    have c2 : (1 : ℝ) / 2 ^ 23 * 3 ≤ 1 := by norm_num
    have c3 : (1 : ℝ) / 2 ^ 100 ≤ 1 := by norm_num
    linarith
  obtain ⟨fr, er⟩ := mul32_err md ft fa (le_trans (abs_mul_le ht b2) (by linarith))
  refine ⟨fr, ?_⟩
  rw [ex2]
  exact m1f_mid_aux hu hu2 (ruf_ge md) etaf_pos.le hη hz8 (by rw [hz]; linarith) et ea er

/-- the kernel: the reals -/
theorem m1f_big_aux {md : Mode} {D S r X : ℝ} (hX : 1 / 4 ≤ |X|) (hD : |D - exp X| ≤ exp X * (1022 / 1000 * pf md + 1 / 2 ^ 42))
    (hS : |S - (D - 1)| ≤ ru md * |D - 1| + eta) (hr : |r - S| ≤ ruf md * |S| + hf md * etaf) :
    |r - (exp X - 1)| ≤ 145 / 100 * ruf md * |exp X - 1| + 2 * etaf := by
  have hδ : 456 / 100 * (1022 / 1000 * pf md + 1 / 2 ^ 42) ≤ ruf md * (441 / 1000) := by
    unfold pf ruf; split_ifs <;> norm_num
  have hd0 : 0 ≤ 1022 / 1000 * pf md + 1 / 2 ^ 42 := by have := pf_nonneg md; positivity
  generalize 1022 / 1000 * pf md + 1 / 2 ^ 42 = δ at *
  have h1 := m1_ratio hX
  have hW := abs_nonneg (exp X - 1)
  have hu := ruf_pos md
  have hu2 := ruf_le md
  have hu3 := ruf_ge md
  have hv := ru_pos md
  have hv2 := ru_le md
  have hη := eta_pos
  have hηf := etaf_pos
  have hηη : eta ≤ etaf * (1 / 1000) := by
    rw [eta_eq, etaf_eq]
    have h := two_zpow_le (show (-1074 : ℤ) ≤ -10 + -149 by norm_num)
    rw [zpow_add₀ (by norm_num)] at h
    have c : (2 : ℝ) ^ (-10 : ℤ) = 1 / 1024 := by norm_num
    rw [c] at h
    have := two_zpow_pos (-149)
    linarith
  have hh := hf_le md
  have hhη : hf md * etaf ≤ 1 * etaf := mul_le_mul_of_nonneg_right hh hηf.le
  have h2 : exp X * δ ≤ ruf md * (441 / 1000) * |exp X - 1| := by
    have a := mul_le_mul_of_nonneg_right h1 hd0
    have b := mul_le_mul_of_nonneg_right hδ hW
    linarith
  have h3 : |D - 1 - (exp X - 1)| ≤ ruf md * (441 / 1000) * |exp X - 1| := by rw [sub_sub_sub_cancel_right]; linarith
  generalize exp X - 1 = w at *
  have hvu : ru md ≤ ruf md * (1 / 10 ^ 6) := by
    have : (1 : ℝ) / 2 ^ 52 ≤ 1 / 2 ^ 24 * (1 / 10 ^ 6) := by norm_num
    linarith
  have hu6 : ruf md ≤ 1 / 10 ^ 6 := le_trans hu2 (by norm_num)
  have huw : 0 ≤ ruf md * |w| := by positivity
  have h4 : |D - 1| ≤ |w| * 2 := by
    have := abs_near h3 (le_refl |w|)
    have := mul_le_mul_of_nonneg_right hu6 hW
    linarith
  have h5 : ru md * |D - 1| ≤ ruf md * (1 / 10 ^ 6) * (|w| * 2) := mul_le_mul hvu h4 (abs_nonneg _) (by positivity)
  have h6 := abs_tri hS h3
  have h7 : |S - w| ≤ ruf md * |w| * (4411 / 10000) + eta := by linarith
  have h8 := abs_near h7 (le_refl |w|)
  have h9 : ruf md * |S| ≤ ruf md * (|w| + (ruf md * |w| * (4411 / 10000) + eta)) := mul_le_mul_of_nonneg_left h8 hu.le
  have h10 : ruf md * (ruf md * |w|) ≤ 1 / 10 ^ 6 * (ruf md * |w|) := mul_le_mul_of_nonneg_right hu6 huw
  have h11 : ruf md * eta ≤ 1 / 10 ^ 6 * eta := mul_le_mul_of_nonneg_right hu6 hη.le
  have h12 := abs_tri hr h7
  have h13 : ruf md * (|w| + (ruf md * |w| * (4411 / 10000) + eta)) = ruf md * |w| + 4411 / 10000 * (ruf md * (ruf md * |w|)) + ruf md * eta := by ring
  rw [h13] at h9
  linarith

theorem val_one64' : binary64.val 0x3FF0000000000000 = 1 := by
  rw [lit64 false (2 ^ 52) 52 (by decide +kernel) (by decide +kernel) (by decide +kernel) (by decide +kernel)]
  norm_num [sg]

theorem val_m1f : binary32.val 0xBF800000 = -1 := by
  rw [lit32 true (2 ^ 23) 23 (by decide +kernel) (by decide +kernel) (by decide +kernel) (by decide +kernel)]
  norm_num [sg]

theorem expm1Kernelf_main (md : Mode) {x : ℕ} (hx : binary32.Finite x) (h1 : binary32.val 0xC2CFF1B4 ≤ binary32.val x) (h2 : binary32.val x ≤ binary32.val 0x42B17217) :
    CC.expm1Kernelf md x = binary32.hcvt binary64 md (binary64.hsub md (binary64.hmul md (CC.expfParts md (binary64.hcvt binary32 md x)).1
      (CC.expfParts md (binary64.hcvt binary32 md x)).2) 0x3FF0000000000000) := by
  have hT := finite_absTop hx
  have f1 : binary32.Finite 0x42B17217 := by decide +kernel
  have f2 : binary32.Finite 0xC2CFF1B4 := by decide +kernel
  unfold CC.expm1Kernelf
  simp only
  rw [if_neg (by rintro ⟨-, hc⟩; rw [hc] at hT; revert hT; decide +kernel), if_neg (by omega), if_neg (by
    rintro ⟨-, hc⟩
    unfold hgt at hc
    rw [CC.hlt_finite binary32 f1 hx] at hc
    linarith), if_neg (by
    rintro ⟨-, hc⟩
    rw [CC.hlt_finite binary32 hx f2] at hc
    linarith)]

theorem expm1Kernelf_low (md : Mode) {x : ℕ} (hx : binary32.Finite x) (h : binary32.val x < binary32.val 0xC2CFF1B4) : CC.expm1Kernelf md x = 0xBF800000 := by
  have hT := finite_absTop hx
  have f1 : binary32.Finite 0x42B17217 := by decide +kernel
  have f2 : binary32.Finite 0xC2CFF1B4 := by decide +kernel
  have hv := h
  rw [val_fmin] at hv
  have c : (88 : ℝ) ≤ 0xCFF1B4 / 2 ^ 17 := by norm_num
  have h3 := (absTopf_ge hx.valid).2 (by rw [abs_of_neg (by linarith)]; linarith)
  unfold CC.expm1Kernelf
  simp only
  rw [if_neg (by rintro ⟨-, hc⟩; rw [hc] at hT; revert hT; decide +kernel), if_neg (by omega), if_neg (by
    rintro ⟨-, hc⟩
    unfold hgt at hc
    rw [CC.hlt_finite binary32 f1 hx, val_fmax] at hc
    have c : (0 : ℝ) ≤ 0xB17217 / 2 ^ 17 := by norm_num
    linarith), if_pos ⟨h3, by rw [CC.hlt_finite binary32 hx f2]; exact h⟩]

theorem m1f_kernel (md : Mode) {x : ℕ} (hx : binary32.Finite x) (h14 : 1 / 4 ≤ |binary32.val x|) (h2 : binary32.val x ≤ binary32.val 0x42B17217) :
    binary32.Finite (CC.expm1Kernelf md x) ∧
      |binary32.val (CC.expm1Kernelf md x) - (exp (binary32.val x) - 1)| ≤ 145 / 100 * ruf md * |exp (binary32.val x) - 1| + 2 * etaf := by
  have hηf := etaf_pos
  have hu := ruf_pos md
  by_cases h1 : binary32.val 0xC2CFF1B4 ≤ binary32.val x
  · rw [expm1Kernelf_main md hx h1 h2]
    obtain ⟨fD, eD⟩ := expfD md hx (abs104 h1 h2)
    generalize binary64.hmul md (CC.expfParts md (binary64.hcvt binary32 md x)).1 (CC.expfParts md (binary64.hcvt binary32 md x)).2 = d at fD eD ⊢
    have hE := Real.exp_pos (binary32.val x)
    have hmax := fmax_exp h2
    have hδ : 1022 / 1000 * pf md + 1 / 2 ^ 42 ≤ 1 / 2 ^ 22 := by
      have hp := pf_le md
      have c : (1022 : ℝ) / 1000 * (1125 / 10 ^ 11) + 1 / 2 ^ 42 ≤ 1 / 2 ^ 22 := by norm_num
      linarith
    have hEδ : exp (binary32.val x) * (1022 / 1000 * pf md + 1 / 2 ^ 42) ≤ exp (binary32.val x) * (1 / 2 ^ 22) := mul_le_mul_of_nonneg_left hδ hE.le
    have hdd := abs_le.1 (le_trans eD hEδ)
    have f1 : binary64.Finite 0x3FF0000000000000 := by decide +kernel
    have hd0 : 0 ≤ binary64.val d := by
      have : exp (binary32.val x) * (1 / 2 ^ 22) ≤ exp (binary32.val x) * 1 := mul_le_mul_of_nonneg_left (by norm_num) hE.le
      linarith
    have hd1 : binary64.val d ≤ 2 ^ 128 * (1 - 1 / 2 ^ 20) * (1 + 1 / 2 ^ 22) := by
      have : exp (binary32.val x) * (1 + 1 / 2 ^ 22) ≤ 2 ^ 128 * (1 - 1 / 2 ^ 20) * (1 + 1 / 2 ^ 22) := mul_le_mul_of_nonneg_right hmax (by positivity)
      linarith
    have hdb : |binary64.val d - 1| ≤ 2 ^ 128 * (1 - 1 / 2 ^ 20) * (1 + 1 / 2 ^ 22) := by
      have c : (1 : ℝ) ≤ 2 ^ 128 * (1 - 1 / 2 ^ 20) * (1 + 1 / 2 ^ 22) := by norm_num
      rw [abs_le]; constructor <;> linarith
    have R := binary64.hsub_spec md fD f1
    rw [val_one64'] at R
    obtain ⟨fS, eS⟩ := err64 R (le_trans hdb (by norm_num))
    have hS : |binary64.val (binary64.hsub md d 0x3FF0000000000000)| ≤ binary32.maxFin := by
      rw [maxFin32]
      have a := mul_le_mul (ru_le md) hdb (abs_nonneg _) (by positivity)
      have b := abs_near eS hdb
      have c : (2 : ℝ) ^ 128 * (1 - 1 / 2 ^ 20) * (1 + 1 / 2 ^ 22) + (1 / 2 ^ 52 * (2 ^ 128 * (1 - 1 / 2 ^ 20) * (1 + 1 / 2 ^ 22)) + 1 / 2 ^ 200) ≤ 2 ^ 128 - 2 ^ 104 := by norm_num
      have := eta_le
      linarith
    generalize binary64.hsub md d 0x3FF0000000000000 = s at fS eS hS ⊢
    obtain ⟨fr, er⟩ := err32m (CC.hcvt_spec binary32 binary64 md fS) hS
    exact ⟨fr, m1f_big_aux h14 eD eS er⟩
  · push_neg at h1
    rw [expm1Kernelf_low md hx h1, val_m1f]
    refine ⟨by decide +kernel, ?_⟩
    have h3 := (C65_expf_underflow md hx h1).1
    have h4 : (2 : ℝ) ^ (-150 : ℤ) ≤ etaf := by rw [etaf_eq]; exact two_zpow_le (by norm_num)
    rw [show -1 - (exp (binary32.val x) - 1) = -exp (binary32.val x) by ring, abs_neg, abs_of_pos (Real.exp_pos _)]
    have : 0 ≤ 145 / 100 * ruf md * |exp (binary32.val x) - 1| := by positivity
    linarith

/-- **C67.** `expm1(float)`. For every finite argument up to 88.72283172607422, in every rounding mode, the result is finite and differs from `e^x - 1` by at
most `1.45 · ru` relative when `|x| ≤ 1/16` or `|x| ≥ 1/4`, and by at most `4 · ru` in between, where `ru` is `2^-24` in round-to-nearest and `2^-23`
otherwise, plus four times the least subnormal. -/
theorem C67_expm1f_accuracy (md : Mode) {x : ℕ} (hx : binary32.Finite x) (hle : binary32.val x ≤ binary32.val 0x42B17217) :
    binary32.Finite (CC.expm1Float md x) ∧
      |binary32.val (CC.expm1Float md x) - (Real.exp (binary32.val x) - 1)| ≤
        (if |binary32.val x| ≤ 1 / 16 ∨ 1 / 4 ≤ |binary32.val x| then 1.45 else 4) * (if md = .nearest then 1 / 2 ^ 24 else 1 / 2 ^ 23) * |Real.exp (binary32.val x) - 1| +
          (2 : ℝ) ^ (-147 : ℤ) := by
  have hr : (if md = .nearest then 1 / 2 ^ 24 else 1 / 2 ^ 23) = ruf md := rfl
  have he : (2 : ℝ) ^ (-147 : ℤ) = 4 * etaf := by
    rw [etaf_eq, show (-147 : ℤ) = 2 + -149 from rfl, zpow_add₀ (by norm_num)]; norm_num
  have h145 : (1.45 : ℝ) = 145 / 100 := by norm_num
  rw [hr, he, h145]
  have hu := ruf_pos md
  have hη := etaf_pos
  have hu0 : 0 ≤ ruf md * |exp (binary32.val x) - 1| := by positivity
  obtain ⟨k1, k2, k3, k4⟩ := expm1Float_finite md hx
  by_cases c1 : 1 / 4 ≤ |binary32.val x|
  · rw [if_pos (Or.inr c1), k2 c1]
    obtain ⟨p, q⟩ := m1f_kernel md hx c1 hle
    exact ⟨p, by linarith⟩
  by_cases c2 : |binary32.val x| ≤ 1 / 16
  · rw [if_pos (Or.inl c2)]
    by_cases c0 : binary32.val x = 0
    · rw [k1 c0, c0]
      refine ⟨hx, ?_⟩
      rw [Real.exp_zero]; simp only [sub_self, abs_zero, mul_zero, zero_add]; linarith
    · rw [k4 c0 c2]
      obtain ⟨p, q⟩ := m1f_series md hx (by linarith)
      exact ⟨p, m1f_small_aux hu (ruf_ge md) c2 q⟩
  · rw [if_neg (by tauto)]
    obtain ⟨p, q⟩ := m1f_mid md hx (by linarith) (by linarith)
    exact ⟨p, by linarith⟩

-- expm1(1), expm1(0.01), expm1(0.2), expm1(-200) = -1
example : binary32.Finite 0x3F800000 ∧ CC.expm1Float .nearest 0x3F800000 = 0x3FDBF0A9 := by decide +kernel
example : binary32.Finite 0x3C23D70A ∧ CC.expm1Float .nearest 0x3C23D70A = 0x3C24A974 := by decide +kernel
example : binary32.Finite 0x3E4CCCCD ∧ CC.expm1Float .nearest 0x3E4CCCCD = 0x3E62B768 := by decide +kernel
example : binary32.Finite 0xC3480000 ∧ CC.expm1Float .nearest 0xC3480000 = 0xBF800000 := by decide +kernel

/-- **C67.** Above 88.72283172607422, where `e^x` is more than `2^128`, the result is the overflow result of the rounding mode. -/
theorem C67_expm1f_overflow (md : Mode) {x : ℕ} (hx : binary32.Finite x) (h : binary32.val 0x42B17217 < binary32.val x) :
    (2 : ℝ) ^ (128 : ℤ) < Real.exp (binary32.val x) ∧ CC.expm1Float md x = if md = .nearest ∨ md = .up then 0x7F800000 else 0x7F7FFFFF := by
  refine ⟨(C65_expf_overflow md hx h).1, ?_⟩
  have hT := finite_absTop hx
  have f1 : binary32.Finite 0x42B17217 := by decide +kernel
  have hv := h
  rw [val_fmax] at hv
  have c : (88 : ℝ) ≤ 0xB17217 / 2 ^ 17 := by norm_num
  have h88 : 88 ≤ |binary32.val x| := by rw [abs_of_pos (by linarith)]; linarith
  have h3 := (absTopf_ge hx.valid).2 h88
  rw [(expm1Float_finite md hx).2.1 (by linarith)]
  unfold CC.expm1Kernelf
  simp only
  rw [if_neg (by rintro ⟨-, hc⟩; rw [hc] at hT; revert hT; decide +kernel), if_neg (by omega), if_pos ⟨h3, by
    unfold hgt
    rw [CC.hlt_finite binary32 f1 hx]; exact h⟩]
  cases md <;> decide +kernel

example : binary32.Finite 0x42B17218 ∧ CC.expm1Float .nearest 0x42B17218 = 0x7F800000 := by decide +kernel

/-- **C67.** Special arguments: `expm1(±0) = ±0`, `expm1(+∞) = +∞`, `expm1(-∞) = -1`, and a NaN gives a NaN. -/
theorem C67_expm1f_special (md : Mode) :
    CC.expm1Float md 0 = 0 ∧ CC.expm1Float md 0x80000000 = 0x80000000 ∧
      CC.expm1Float md 0x7F800000 = 0x7F800000 ∧ CC.expm1Float md 0xFF800000 = 0xBF800000 ∧
      ∀ x, binary32.IsNaN x → binary32.IsNaN (CC.expm1Float md x) := by
  refine ⟨by cases md <;> decide +kernel, by cases md <;> decide +kernel, by cases md <;> decide +kernel, by cases md <;> decide +kernel, ?_⟩
  intro x hx
  unfold CC.expm1Float
  have h1 : binary32.nanB x = true := (binary32.nanB_iff hx.1).2 hx
  rw [if_neg (by unfold heq; rw [h1]; simp), if_pos (by rw [CC.isnan_eq]; exact h1)]
  exact binary32.isNaN_qnan

example : binary32.IsNaN 0x7FC00001 := by decide +kernel

end Verif
