import Verif.Lemmas.Expm1
import Verif.Props.Exp

/-!
# Properties of the double `expm1` (C63)

`ru md` is `2^-53` in round-to-nearest and `2^-52` in the other modes; `eta` is the least subnormal.
-/

namespace Verif
open Fmt Real

theorem m1_id_le {X : ℝ} (h : |X| ≤ 1) : |exp X - 1 - X| ≤ |X| ^ 2 * (3 / 4) := by
  have h1 := Real.exp_bound h (n := 2) (by norm_num)
  have e : exp X - ∑ m ∈ Finset.range 2, X ^ m / (m.factorial : ℝ) = exp X - 1 - X := by
    simp only [Finset.sum_range_succ, Finset.sum_range_zero, Nat.factorial]; push_cast; ring
  rw [e] at h1
  refine le_trans h1 (le_of_eq ?_)
  norm_num [Nat.factorial]

theorem m1_small_aux {u X s η : ℝ} (hu : 0 < u) (hu3 : 1 / 2 ^ 53 ≤ u) (hX : |X| ≤ 1 / 16) (h : |s - (exp X - 1)| ≤ u * (|X| * (1 + 24 / 10 * |X|)) + |X| ^ 9 * (10 / 3265920) + η) :
    |s - (exp X - 1)| ≤ 8 * u * |exp X - 1| + η := by
  have h0 := abs_nonneg X
  have h1 := m1_id_le (X := X) (by linarith)
  have h2 : |X| ^ 2 ≤ 1 / 16 * |X| := by rw [sq]; exact mul_le_mul_of_nonneg_right hX h0
  have h3 : |X| * (953 / 1000) ≤ |exp X - 1| := by
    have h4 : |X| - |exp X - 1| ≤ |X - (exp X - 1)| := abs_sub_abs_le_abs_sub _ _
    rw [show X - (exp X - 1) = -(exp X - 1 - X) by ring, abs_neg] at h4
    linarith
  have h5 : |X| ^ 9 * (10 / 3265920) ≤ u * (|X| * (6422 / 1000)) := by
    have h6 : |X| ^ 8 ≤ (1 / 16) ^ 8 := pow_le_pow_left₀ h0 hX 8
    have h7 : |X| ^ 8 * (10 / 3265920) ≤ 1 / 2 ^ 53 * (6422 / 1000) := by
      refine le_trans (mul_le_mul_of_nonneg_right h6 (by norm_num)) (by norm_num)
    have h8 := mul_le_mul_of_nonneg_left h7 h0
    have h9 := mul_le_mul_of_nonneg_right hu3 (show 0 ≤ |X| * (6422 / 1000) by positivity)
    have e : |X| ^ 9 * (10 / 3265920) = |X| * (|X| ^ 8 * (10 / 3265920)) := by ring
    rw [e]; linarith
  have h10 : u * (|X| * (1 + 24 / 10 * |X|)) ≤ u * (|X| * (115 / 100)) := mul_le_mul_of_nonneg_left (mul_le_mul_of_nonneg_left (by linarith) h0) hu.le
  have h11 := mul_le_mul_of_nonneg_left h3 hu.le
  have h12 : 0 ≤ u * |X| := by positivity
  linarith

theorem m1_mid_aux {u Z t a r η : ℝ} (hu : 0 < u) (hu2 : u ≤ 1 / 2 ^ 52) (hu3 : 1 / 2 ^ 53 ≤ u) (hη0 : 0 ≤ η) (hη : η ≤ 1 / 2 ^ 200) (hZ : |Z| ≤ 1 / 8) (hZ2 : 1 / 32 ≤ |Z|)
    (h : |t - (exp Z - 1)| ≤ u * (|Z| * (1 + 24 / 10 * |Z|)) + |Z| ^ 9 * (10 / 3265920) + 4 * η) (ha : |a - (t + 2)| ≤ u * |t + 2| + η) (hr : |r - t * a| ≤ u * |t * a| + η) :
    |r - (exp (2 * Z) - 1)| ≤ 2000 * u * |exp (2 * Z) - 1| := by
  have h0 := abs_nonneg Z
  have h1 := m1_id_le (X := Z) (by linarith)
  have h2 : |Z| ^ 2 ≤ 1 / 8 * |Z| := by rw [sq]; exact mul_le_mul_of_nonneg_right hZ h0
  set T := exp Z - 1 with hT
  have h3 : |Z| * (906 / 1000) ≤ |T| := by
    have h4 : |Z| - |T| ≤ |Z - T| := abs_sub_abs_le_abs_sub _ _
    rw [show Z - T = -(T - Z) by ring, abs_neg] at h4
    linarith
  have h3' : |T| ≤ 138 / 1000 := by
    have := abs_near h1 (le_refl |Z|)
    linarith
  have hη' : 4 * η ≤ u * (|Z| * (1 / 1000)) := by
    have := mul_le_mul hu3 (mul_le_mul_of_nonneg_right hZ2 (show (0 : ℝ) ≤ 1 / 1000 by norm_num)) (by norm_num) hu.le
    have c : (4 : ℝ) * (1 / 2 ^ 200) ≤ 1 / 2 ^ 53 * (1 / 32 * (1 / 1000)) := by norm_num
    linarith
  have hd : |t - T| ≤ u * (|Z| * 1646) := by
    have h6 : |Z| ^ 8 ≤ (1 / 8) ^ 8 := pow_le_pow_left₀ h0 hZ 8
    have h7 : |Z| ^ 8 * (10 / 3265920) ≤ 1 / 2 ^ 53 * 1644 := by
      refine le_trans (mul_le_mul_of_nonneg_right h6 (by norm_num)) (by norm_num)
    have h8 := mul_le_mul_of_nonneg_left h7 h0
    have h9 := mul_le_mul_of_nonneg_right hu3 (show 0 ≤ |Z| * 1644 by positivity)
    have e : |Z| ^ 9 * (10 / 3265920) = |Z| * (|Z| ^ 8 * (10 / 3265920)) := by ring
    rw [e] at h
    have h10 : u * (|Z| * (1 + 24 / 10 * |Z|)) ≤ u * (|Z| * (13 / 10)) := mul_le_mul_of_nonneg_left (mul_le_mul_of_nonneg_left (by linarith) h0) hu.le
    linarith
  have hd2 : |t - T| ≤ u * (|T| * 1817) := by
    refine le_trans hd (mul_le_mul_of_nonneg_left ?_ hu.le)
    linarith
  have hT0 : 0 < |T| := by linarith
  have hut : u * (|T| * 1817) ≤ 1 / 10 ^ 9 := by
    have := mul_le_mul hu2 (show |T| * 1817 ≤ 300 by linarith) (by positivity) (by positivity)
    have c : (1 : ℝ) / 2 ^ 52 * 300 ≤ 1 / 10 ^ 9 := by norm_num
    linarith
  have hu1 : u ≤ 1 / 10 ^ 12 := le_trans hu2 (by norm_num)
  have hη1 : η ≤ 1 / 10 ^ 12 := le_trans hη (by norm_num)
  have hTb := abs_le.1 h3'
  have hdb := abs_le.1 hd2
  have ht2 : |t + 2| ≤ 214 / 100 := by rw [abs_le]; constructor <;> linarith
  have h12 : u * |t + 2| ≤ u * (214 / 100) := mul_le_mul_of_nonneg_left ht2 hu.le
  have hη3 : η ≤ u * (1 / 1000) := by
    have := mul_le_mul_of_nonneg_right hu3 (show (0 : ℝ) ≤ 1 / 1000 by norm_num)
    have c : (1 : ℝ) / 2 ^ 200 ≤ 1 / 2 ^ 53 * (1 / 1000) := by norm_num
    linarith
  have ha2 : |a - (t + 2)| ≤ u * (215 / 100) := by linarith
  have hab : |a| ≤ 215 / 100 := by
    have := abs_near ha2 ht2; linarith
  have htb : |t| ≤ |T| * (101 / 100) := by
    have h13 := abs_near hd2 (le_refl |T|)
    have h14 : u * (|T| * 1817) ≤ 1 / 10 ^ 12 * (|T| * 1817) := mul_le_mul_of_nonneg_right hu1 (by positivity)
    linarith
  have hta : |t * a| ≤ |T| * (101 / 100) * (215 / 100) := abs_mul_le htb hab
  have hr2 : |r - t * a| ≤ u * (|T| * (2172 / 1000)) + η := by
    have := mul_le_mul_of_nonneg_left hta hu.le
    linarith
  -- target
  have e1 : exp (2 * Z) - 1 = T * (T + 2) := by
    rw [hT, two_mul, Real.exp_add]; ring
  rw [e1]
  have e2 : r - T * (T + 2) = (r - t * a) + t * (a - (t + 2)) + (t - T) * (t + T + 2) := by ring
  have h20 : |t * (a - (t + 2))| ≤ |T| * (101 / 100) * (u * (215 / 100)) := abs_mul_le htb ha2
  have hTT : 186 / 100 ≤ |T + 2| := by rw [abs_of_pos (by linarith)]; linarith
  have h21 : |t + T + 2| ≤ |T + 2| * (1075 / 1000) := by
    rw [abs_of_pos (show 0 < t + T + 2 by linarith), abs_of_pos (show 0 < T + 2 by linarith)]
    linarith
  have h22 : |(t - T) * (t + T + 2)| ≤ u * (|T| * 1817) * (|T + 2| * (1075 / 1000)) := abs_mul_le hd2 h21
  rw [e2, abs_mul]
  have h23 : η ≤ u * (|T| * (1 / 10)) := by
    have : |Z| * (1 / 1000) ≤ |T| * (1 / 100) := by linarith
    have := mul_le_mul_of_nonneg_left this hu.le
    have : 0 ≤ u * |T| := by positivity
    linarith
  have h24 : |r - t * a + t * (a - (t + 2)) + (t - T) * (t + T + 2)| ≤ u * |T| * (45 / 10) + u * (|T| * 1817) * (|T + 2| * (1075 / 1000)) := by
    refine le_trans (abs_add_le' (abs_add_le' hr2 h20) h22) ?_
    have : 0 ≤ u * |T| := by positivity
    linarith
  refine le_trans h24 ?_
  have h25 : u * |T| * (45 / 10) ≤ u * |T| * (|T + 2| * 3) := mul_le_mul_of_nonneg_left (by linarith) (by positivity)
  have h26 : 0 ≤ u * |T| * |T + 2| := by positivity
  linarith

/-- `e^X` is at most 4.56 `|e^X - 1|` if `|X| ≥ 1/4` -/
theorem m1_ratio {X : ℝ} (h : 1 / 4 ≤ |X|) : exp X ≤ 456 / 100 * |exp X - 1| := by
  have hq : (128125 / 100000 : ℝ) ≤ exp (1 / 4) := by
    have := Real.quadratic_le_exp_of_nonneg (x := (1 / 4 : ℝ)) (by norm_num)
    norm_num at this ⊢; linarith
  rcases le_abs.1 h with h1 | h1
  · have := Real.exp_le_exp.2 h1
    rw [abs_of_pos (show (0 : ℝ) < exp X - 1 by linarith)]
    linarith
  · have h2 : exp X ≤ exp (-(1 / 4)) := Real.exp_le_exp.2 (by linarith)
    have h3 : exp (-(1 / 4)) ≤ 7805 / 10000 := by
      rw [Real.exp_neg]
      refine le_trans (inv_anti₀ (by norm_num) hq) (by norm_num)
    rw [abs_of_neg (by linarith)]
    linarith

theorem m1_big_aux {u K e r X η : ℝ} (hu : 0 < u) (hu2 : u ≤ 1 / 2 ^ 52) (hK : K ≤ 13 / 10) (hK0 : 0 ≤ K) (hX : 1 / 4 ≤ |X|) (he : |e - exp X| ≤ u * (K * exp X))
    (hr : |r - (e - 1)| ≤ u * |e - 1| + η) : |r - (exp X - 1)| ≤ 7 * u * |exp X - 1| + η := by
  have h1 := m1_ratio hX
  have hE := Real.exp_pos X
  have h2 : K * exp X ≤ 593 / 100 * |exp X - 1| := by
    have := mul_le_mul hK h1 hE.le (by norm_num)
    linarith
  have h3 := mul_le_mul_of_nonneg_left h2 hu.le
  have h4 : |e - 1 - (exp X - 1)| ≤ u * (593 / 100 * |exp X - 1|) := by rw [sub_sub_sub_cancel_right]; linarith
  have h5 := abs_near h4 le_rfl
  have h6 := mul_le_mul_of_nonneg_left h5 hu.le
  have h7 : u * (u * (593 / 100 * |exp X - 1|)) ≤ 1 / 2 ^ 52 * (u * (593 / 100 * |exp X - 1|)) := mul_le_mul_of_nonneg_right hu2 (by positivity)
  have h8 : (1 : ℝ) / 2 ^ 52 * (u * (593 / 100 * |exp X - 1|)) ≤ 1 / 1000 * (u * (593 / 100 * |exp X - 1|)) := mul_le_mul_of_nonneg_right (by norm_num) (by positivity)
  have h9 := abs_tri hr h4
  have h10 : 0 ≤ u * |exp X - 1| := by positivity
  linarith

theorem neg_of_shift {x : ℕ} (hs : x >>> 63 ≠ 0) : binary64.val x ≤ 0 := by
  have hs' : binary64.sgn x = true := by
    rw [Nat.shiftRight_eq_div_pow] at hs
    unfold sgn
    have : binary64.E + binary64.F = 63 := rfl
    rw [this, decide_eq_true_iff]
    omega
  rw [binary64.val_eq, hs']; simp only [sg, if_true]
  have : (0 : ℝ) ≤ (binary64.umag (binary64.mag x) : ℝ) * binary64.minSub := mul_nonneg (Nat.cast_nonneg _) binary64.minSub_pos.le
  linarith

theorem nonneg_of_shift {x : ℕ} (hs : ¬ x >>> 63 ≠ 0) : 0 ≤ binary64.val x := by
  have hs' : binary64.sgn x = false := by
    rw [Nat.shiftRight_eq_div_pow] at hs
    unfold sgn
    have : binary64.E + binary64.F = 63 := rfl
    rw [this, decide_eq_false_iff_not]
    omega
  rw [binary64.val_eq, hs']; simp only [sg, Bool.false_eq_true, if_false, one_mul]
  exact mul_nonneg (Nat.cast_nonneg _) binary64.minSub_pos.le

theorem val_m1 : binary64.val 0xBFF0000000000000 = -1 := by
  rw [lit64 true (2 ^ 52) 52 (by decide +kernel) (by decide +kernel) (by decide +kernel) (by decide +kernel)]
  norm_num [sg]

/-- the reals of the range in which `expm1` returns `exp` -/
theorem m1_huge_aux {u K S r X : ℝ} (hu : 0 < u) (hu3 : 1 / 2 ^ 53 ≤ u) (hK : K ≤ 13 / 10) (hS : S ≤ 1 / 1000) (hX : 512 ≤ X)
    (he : |r - exp X| ≤ u * (K * exp X + S)) : |r - (exp X - 1)| ≤ 7 * u * |exp X - 1| := by
  have h1 : (2 : ℝ) ^ (100 : ℤ) ≤ exp X := zpow_le_exp 100 (by have := log2_bd.2; push_cast; linarith)
  have e : (2 : ℝ) ^ (100 : ℤ) = 2 ^ 100 := by norm_cast
  rw [e] at h1
  have h2 : (1 : ℝ) ≤ u * exp X := by
    have := mul_le_mul hu3 h1 (by positivity) hu.le
    have c : (1 : ℝ) ≤ 1 / 2 ^ 53 * 2 ^ 100 := by norm_num
    linarith
  have c : (10 : ℝ) ≤ 2 ^ 100 := by norm_num
  rw [abs_of_pos (show (0 : ℝ) < exp X - 1 by linarith)]
  have h3 : u * (K * exp X + S) ≤ u * (14 / 10 * exp X) := by
    refine mul_le_mul_of_nonneg_left ?_ hu.le
    have := mul_le_mul_of_nonneg_right hK (Real.exp_pos X).le
    linarith
  have h4 : |r - (exp X - 1)| ≤ u * (14 / 10 * exp X) + 1 := by
    have : r - (exp X - 1) = (r - exp X) + 1 := by ring
    rw [this]
    refine abs_add_le' (by linarith) (by norm_num)
  have h5 : u * 10 ≤ u * exp X := mul_le_mul_of_nonneg_left (by linarith) hu.le
  linarith

theorem S_small (md : Mode) : expS md * (2 : ℝ) ^ (-1022 : ℤ) ≤ 1 / 1000 := by
  have h1 : expS md ≤ 2 := by unfold expS; split_ifs <;> norm_num
  have h2 := two_zpow_le (show (-1022 : ℤ) ≤ -20 by norm_num)
  have h3 : (2 : ℝ) ^ (-20 : ℤ) = 1 / 2 ^ 20 := by rw [zpow_neg, one_div]; norm_cast
  rw [h3] at h2
  refine le_trans (mul_le_mul h1 h2 (two_zpow_pos _).le (by norm_num)) (by norm_num)

/-- what `expm1_kernel` does for arguments of magnitude at least 1/4 -/
theorem expm1Kernel_cases (md : Mode) {x : ℕ} (hx : binary64.Finite x) (h14 : 1 / 4 ≤ |binary64.val x|) :
    (binary64.val x ≤ binary64.val 0x40862E42FEFA39EF → ¬ (-1024 < binary64.val x ∧ binary64.val x ≤ -512) →
      binary64.Finite (CC.expm1Kernel md x) ∧
        |binary64.val (CC.expm1Kernel md x) - (exp (binary64.val x) - 1)| ≤ 7 * ru md * |exp (binary64.val x) - 1| + eta) ∧
    (binary64.val 0x40862E42FEFA39EF < binary64.val x → CC.expm1Kernel md x = binary64.ovf md false) ∧
    (-1024 < binary64.val x ∧ binary64.val x ≤ -512 → binary64.Finite (CC.expm1Kernel md x) ∧ 0 ≤ binary64.val (CC.expm1Kernel md x)) := by
  have hT := finite_bexp hx
  have hu := ru_pos md
  have hu2 := ru_le md
  have hu3 := ru_ge md
  have hη := eta_pos
  have hmx : (700 : ℝ) ≤ binary64.val 0x40862E42FEFA39EF := by rw [val_expMax]; norm_num
  have hmx2 : binary64.val 0x40862E42FEFA39EF ≤ 710 := by rw [val_expMax]; norm_num
  unfold CC.expm1Kernel
  simp only [absTop_eq]
  have h1 : ¬ binary64.bexp x < 0x3c9 := by
    intro hc
    have h2 := abs_lt_of_bexp (by norm_num) hc
    have e : (2 : ℝ) ^ (((0x3c9 : ℕ) : ℤ) - 1023) = 1 / 2 ^ 54 := by
      rw [show ((0x3c9 : ℕ) : ℤ) - 1023 = -54 by norm_num, zpow_neg, one_div]; norm_cast
    rw [e] at h2
    have c : (1 : ℝ) / 2 ^ 54 ≤ 1 / 4 := by norm_num
    linarith
  rw [if_neg (by omega)]
  by_cases h3 : 0x409 ≤ binary64.bexp x
  · rw [if_pos (by omega)]
    have h4 := (bexp_ge (x := x) (by norm_num)).1 h3
    have e : (2 : ℝ) ^ (((0x409 : ℕ) : ℤ) - 1023) = 1024 := by
      rw [show ((0x409 : ℕ) : ℤ) - 1023 = 10 by norm_num]; norm_num
    rw [e] at h4
    rw [if_neg (by
      intro hc; rw [hc] at hT; revert hT; decide +kernel), if_neg (by omega)]
    by_cases hs : x >>> 63 ≠ 0
    · rw [if_pos hs]
      have hneg := neg_of_shift hs
      rw [abs_of_nonpos hneg] at h4
      refine ⟨fun _ _ => ⟨by decide +kernel, ?_⟩, fun h => by exfalso; linarith, fun h => by exfalso; linarith [h.1]⟩
      rw [val_m1]
      have hEx := Real.exp_pos (binary64.val x)
      have hsm : exp (binary64.val x) ≤ 1 / 2 ^ 53 := by
        refine le_trans (exp_le_zpow (-100) (by have := log2_bd.2; push_cast; linarith)) ?_
        refine le_trans (two_zpow_le (show (-100 : ℤ) ≤ -53 by norm_num)) (le_of_eq ?_)
        rw [zpow_neg, one_div]; norm_cast
      have c : (1 : ℝ) / 2 ^ 53 ≤ 1 / 2 := by norm_num
      rw [show -1 - (exp (binary64.val x) - 1) = -exp (binary64.val x) by ring, abs_neg, abs_of_pos hEx, abs_of_neg (by linarith)]
      have h5 : ru md * (1 / 2) ≤ ru md * -(exp (binary64.val x) - 1) := mul_le_mul_of_nonneg_left (by linarith) hu.le
      linarith
    · rw [if_neg hs]
      have hpos := nonneg_of_shift hs
      rw [abs_of_nonneg hpos] at h4
      exact ⟨fun h _ => by exfalso; linarith, fun _ => by cases md <;> decide +kernel, fun h => by exfalso; linarith [h.2]⟩
  rw [if_neg (by omega)]
  have h4 := abs_lt_of_bexp (x := x) (by norm_num) (show binary64.bexp x < 0x409 by omega)
  have e : (2 : ℝ) ^ (((0x409 : ℕ) : ℤ) - 1023) = 1024 := by
    rw [show ((0x409 : ℕ) : ℤ) - 1023 = 10 by norm_num]; norm_num
  rw [e] at h4
  have e2 : (2 : ℝ) ^ (((0x408 : ℕ) : ℤ) - 1023) = 512 := by
    rw [show ((0x408 : ℕ) : ℤ) - 1023 = 9 by norm_num]; norm_num
  have h4' := abs_lt.1 h4
  by_cases h5 : 0x408 ≤ binary64.bexp x
  · have h6 := (bexp_ge (x := x) (by norm_num)).1 h5
    rw [e2] at h6
    rcases le_abs.1 h6 with h7 | h7
    · obtain ⟨tmp, sb, ki, p1, p2, p3⟩ := exp_special_pos md hx h4.le h7
      rw [p1]
      simp only []
      rw [if_pos (by omega)]
      refine ⟨fun h _ => ?_, p3, fun h => by exfalso; linarith [h.2]⟩
      obtain ⟨q1, -, q3⟩ := p2 h
      refine ⟨q1, ?_⟩
      have := m1_huge_aux hu hu3 (expK_le md) (S_small md) h7 q3
      linarith
    · obtain ⟨tmp, sb, ki, p1, p2⟩ := exp_special_neg md hx h4.le (by linarith)
      rw [p1]
      simp only []
      rw [if_pos (by omega)]
      exact ⟨fun _ h => absurd ⟨h4'.1, by linarith⟩ h, fun h => by exfalso; linarith, fun _ => ⟨p2.1, p2.2.1⟩⟩
  · have h6 := abs_lt_of_bexp (x := x) (by norm_num) (show binary64.bexp x < 0x408 by omega)
    rw [e2] at h6
    obtain ⟨tmp, sb, ki, p1, p2, p3, p4⟩ := exp_normal md hx h6
    rw [p1]
    simp only []
    rw [if_neg (by omega)]
    have h6' := abs_lt.1 h6
    refine ⟨fun _ _ => ?_, fun h => by exfalso; linarith, fun h => by exfalso; linarith [h.2]⟩
    have f1 : binary64.Finite 0x3FF0000000000000 := by decide +kernel
    have R := binary64.hsub_spec md p2 f1
    rw [val_one64] at R
    generalize binary64.hadd md sb (binary64.hmul md sb tmp) = ee at *
    have hbig : |binary64.val ee - 1| ≤ (2 : ℝ) ^ (1000 : ℤ) := by
      have hEx := Real.exp_pos (binary64.val x)
      have h8 : exp (binary64.val x) ≤ (2 : ℝ) ^ (800 : ℤ) := exp_le_zpow 800 (by have := log2_bd.1; push_cast; linarith)
      have h9 : ru md * (expK md * exp (binary64.val x)) ≤ 1 * (13 / 10 * exp (binary64.val x)) :=
        mul_le_mul (le_trans hu2 (by norm_num)) (mul_le_mul_of_nonneg_right (expK_le md) hEx.le) (mul_nonneg (by have := expK_ge1 md; linarith) hEx.le) (by norm_num)
      have h10 := abs_le.1 p4
      have h11 : (2 : ℝ) ^ (803 : ℤ) ≤ 2 ^ (1000 : ℤ) := two_zpow_le (by norm_num)
      have h12 : (2 : ℝ) ^ (803 : ℤ) = 8 * 2 ^ (800 : ℤ) := by rw [show (803 : ℤ) = 3 + 800 from rfl, zpow_add₀ (by norm_num)]; norm_num
      have h13 : (1 : ℝ) ≤ 2 ^ (800 : ℤ) := by have := two_zpow_le (show (0 : ℤ) ≤ 800 by norm_num); rwa [zpow_zero] at this
      generalize (2 : ℝ) ^ (800 : ℤ) = w at *
      generalize (2 : ℝ) ^ (803 : ℤ) = w' at *
      generalize (2 : ℝ) ^ (1000 : ℤ) = w'' at *
      rw [abs_le]; constructor <;> linarith
    obtain ⟨fr, er⟩ := err64b R hbig
    exact ⟨fr, m1_big_aux hu hu2 (expK_le md) (by have := expK_ge1 md; linarith) h14 p4 er⟩

theorem val_q14 : binary64.val 0x3FD0000000000000 = 1 / 4 ∧ binary64.val 0xBFD0000000000000 = -(1 / 4) ∧ binary64.val 0x3FB0000000000000 = 1 / 16 ∧ binary64.val 0xBFB0000000000000 = -(1 / 16) := by
  refine ⟨?_, ?_, ?_, ?_⟩
  · rw [lit64 false (2 ^ 52) 54 (by decide +kernel) (by decide +kernel) (by decide +kernel) (by decide +kernel)]; norm_num [sg]
  · rw [lit64 true (2 ^ 52) 54 (by decide +kernel) (by decide +kernel) (by decide +kernel) (by decide +kernel)]; norm_num [sg]
  · rw [lit64 false (2 ^ 52) 56 (by decide +kernel) (by decide +kernel) (by decide +kernel) (by decide +kernel)]; norm_num [sg]
  · rw [lit64 true (2 ^ 52) 56 (by decide +kernel) (by decide +kernel) (by decide +kernel) (by decide +kernel)]; norm_num [sg]

theorem heq_inf_false {x : ℕ} (hx : binary64.Finite x) (s : Bool) : binary64.heq x (binary64.inf s) = false := by
  have h := ((binary64.finite_iff x).1 hx).2
  have e1 : binary64.key (binary64.inf true) = -(binary64.infMag : ℤ) := by decide +kernel
  have e2 : binary64.key (binary64.inf false) = (binary64.infMag : ℤ) := by decide +kernel
  unfold heq
  simp only [Bool.and_eq_false_iff, decide_eq_false_iff_not]
  right
  intro hk
  have h' : (binary64.mag x : ℤ) < binary64.infMag := by exact_mod_cast h
  have hb : |binary64.key x| < binary64.infMag := by
    unfold key
    split_ifs
    · rw [abs_neg, Nat.abs_cast]; exact h'
    · rw [Nat.abs_cast]; exact h'
  rw [hk] at hb
  cases s
  · rw [e2, Nat.abs_cast] at hb; exact lt_irrefl _ hb
  · rw [e1, abs_neg, Nat.abs_cast] at hb; exact lt_irrefl _ hb

/-- `expm1_double_impl` by size of a finite argument -/
theorem expm1Double_finite (md : Mode) {x : ℕ} (hx : binary64.Finite x) :
    (binary64.val x = 0 → CC.expm1Double md x = x) ∧
    (1 / 4 ≤ |binary64.val x| → CC.expm1Double md x = CC.expm1Kernel md x) ∧
    (1 / 16 < |binary64.val x| → |binary64.val x| < 1 / 4 → CC.expm1Double md x =
      binary64.hmul md (CC.expm1Series md (binary64.hmul md x 0x3FE0000000000000)) (binary64.hadd md (CC.expm1Series md (binary64.hmul md x 0x3FE0000000000000)) 0x4000000000000000)) ∧
    (binary64.val x ≠ 0 → |binary64.val x| ≤ 1 / 16 → CC.expm1Double md x = CC.expm1Series md x) := by
  have f0 : binary64.Finite 0 := by decide +kernel
  have v0 : binary64.val 0 = 0 := (binary64.val_eq_zero_iff _).2 (by decide +kernel)
  obtain ⟨q1, q2, q3, q4⟩ := val_q14
  have g1 : binary64.Finite 0x3FD0000000000000 := by decide +kernel
  have g2 : binary64.Finite 0xBFD0000000000000 := by decide +kernel
  have g3 : binary64.Finite 0x3FB0000000000000 := by decide +kernel
  have g4 : binary64.Finite 0xBFB0000000000000 := by decide +kernel
  have c0 : binary64.heq x 0 = true ↔ binary64.val x = 0 := by rw [CC.heq_finite binary64 hx f0, v0]
  have c1 : (binary64.hge x 0x3FD0000000000000 = true ∨ binary64.hle x 0xBFD0000000000000 = true) ↔ 1 / 4 ≤ |binary64.val x| := by
    unfold hge
    rw [CC.hle_finite binary64 g1 hx, CC.hle_finite binary64 hx g2, q1, q2, le_abs, le_neg]
  have c2 : (binary64.hgt x 0x3FB0000000000000 = true ∨ binary64.hlt x 0xBFB0000000000000 = true) ↔ 1 / 16 < |binary64.val x| := by
    unfold hgt
    rw [CC.hlt_finite binary64 g3 hx, CC.hlt_finite binary64 hx g4, q3, q4, lt_abs, lt_neg]
  have key : CC.expm1Double md x = if binary64.val x = 0 then x else if 1 / 4 ≤ |binary64.val x| then CC.expm1Kernel md x else
      if 1 / 16 < |binary64.val x| then binary64.hmul md (CC.expm1Series md (binary64.hmul md x 0x3FE0000000000000)) (binary64.hadd md (CC.expm1Series md (binary64.hmul md x 0x3FE0000000000000)) 0x4000000000000000)
      else CC.expm1Series md x := by
    unfold CC.expm1Double
    simp only [heq_inf_false hx, c0, c1, c2, CC.isnan_eq, (binary64.finite_B hx).1, Bool.false_eq_true, if_false]
  rw [key]
  refine ⟨fun h => by rw [if_pos h], fun h => ?_, fun h h' => ?_, fun h h' => ?_⟩
  · rw [if_neg (by intro hc; rw [hc] at h; norm_num at h), if_pos h]
  · rw [if_neg (by intro hc; rw [hc] at h; norm_num at h), if_neg (by linarith), if_pos h]
  · rw [if_neg h, if_neg (by linarith), if_neg (by linarith)]

theorem m1_mid (md : Mode) {x : ℕ} (hx : binary64.Finite x) (h1 : 1 / 16 < |binary64.val x|) (h2 : |binary64.val x| < 1 / 4) :
    binary64.Finite (CC.expm1Double md x) ∧
      |binary64.val (CC.expm1Double md x) - (exp (binary64.val x) - 1)| ≤ 2000 * ru md * |exp (binary64.val x) - 1| := by
  rw [(expm1Double_finite md hx).2.2.1 h1 h2]
  have fh : binary64.Finite 0x3FE0000000000000 := by decide +kernel
  have f2 : binary64.Finite 0x4000000000000000 := by decide +kernel
  have R0 := binary64.hmul_spec md hx fh
  rw [val_half64] at R0
  have hce : -56 ≤ binary64.ce x := binary64.le_ce_of (by
    have e : (2 : ℝ) ^ ((-56 : ℤ) + (binary64.F : ℤ)) = 1 / 16 := by
      rw [show (-56 : ℤ) + (binary64.F : ℤ) = -4 from rfl]; norm_num
    rw [e]; exact h1.le)
  have hab := abs_lt.1 h2
  have hhalf : |binary64.val x * (1 / 2)| = |binary64.val x| / 2 := by rw [abs_mul, abs_of_pos (show (0 : ℝ) < 1 / 2 by norm_num)]; ring
  obtain ⟨fz, ez⟩ := ex64 (binary64.ce x - 1) R0 (by
    obtain ⟨a, ha⟩ := binary64.mult_ce x
    refine ⟨a, ?_⟩
    rw [ha, sub_eq_add_neg, zpow_add₀ (by norm_num)]; norm_num; ring) (by omega) (by
    have h3 := binary64.abs_val_lt_ce x
    have e : binary64.ce x + (binary64.F : ℤ) + 1 = 1 + (binary64.ce x - 1 + 53) := by
      have : (binary64.F : ℤ) = 52 := rfl
      omega
    rw [e, zpow_add₀ (by norm_num), zpow_one] at h3
    rw [hhalf]; linarith) (by
    rw [hhalf]
    have : (1 : ℝ) ≤ 2 ^ 200 := by norm_num
    linarith)
  generalize binary64.hmul md x 0x3FE0000000000000 = z at fz ez ⊢
  have hz : |binary64.val z| = |binary64.val x| / 2 := by rw [ez, hhalf]
  obtain ⟨ft, et⟩ := m1_series md fz (by rw [hz]; linarith)
  have ex2 : binary64.val x = 2 * binary64.val z := by rw [ez]; ring
  have hu := ru_pos md
  have hu2 := ru_le md
  have hη := eta_le
  have hz8 : |binary64.val z| ≤ 1 / 8 := by rw [hz]; linarith
  have hz0 := abs_nonneg (binary64.val z)
  have ht : |binary64.val (CC.expm1Series md z)| ≤ 1 := by
    have a1 := m1_id_le (X := binary64.val z) (by linarith)
    have a2 : |binary64.val z| ^ 2 ≤ 1 := pow_le_one₀ hz0 (by linarith)
    have a3 : |binary64.val z| ^ 9 ≤ 1 := pow_le_one₀ hz0 (by linarith)
    have a4 : ru md * (|binary64.val z| * (1 + 24 / 10 * |binary64.val z|)) ≤ 1 / 2 ^ 52 * (1 / 8 * 2) :=
      mul_le_mul hu2 (mul_le_mul hz8 (by linarith) (by linarith) (by norm_num)) (by positivity) (by positivity)
    have a5 : |exp (binary64.val z) - 1| ≤ 9 / 10 := by
      have := abs_near a1 (le_refl |binary64.val z|)
      have a2 : |binary64.val z| ^ 2 ≤ 1 / 8 ^ 2 := by
        have := pow_le_pow_left₀ hz0 hz8 2
        norm_num at this ⊢; linarith
      linarith
    have := abs_near et a5
    have c1 : (1 : ℝ) / 2 ^ 52 * (1 / 8 * 2) ≤ 1 / 100 := by norm_num
    have c2 : (4 : ℝ) * (1 / 2 ^ 200) ≤ 1 / 100 := by norm_num
    linarith
  have c200 : (100 : ℝ) ≤ 2 ^ 200 := by norm_num
  have b1 : |binary64.val (CC.expm1Series md z) + 2| ≤ 3 := le_trans (abs_add_le' ht (le_of_eq (abs_of_pos (show (0 : ℝ) < 2 by norm_num)))) (by norm_num)
  obtain ⟨fa, ea⟩ := add64_err md ft f2 (by rw [val_two64]; linarith)
  rw [val_two64] at ea
  have b2 : |binary64.val (binary64.hadd md (CC.expm1Series md z) 0x4000000000000000)| ≤ 10 := by
    have := abs_near ea b1
    have c1 : ru md * |binary64.val (CC.expm1Series md z) + 2| ≤ 1 / 2 ^ 52 * 3 := mul_le_mul hu2 b1 (abs_nonneg _) (by positivity)
    have c2 : (1 : ℝ) / 2 ^ 52 * 3 ≤ 1 := by norm_num
    have c3 : (1 : ℝ) / 2 ^ 200 ≤ 1 := by norm_num
    linarith
  obtain ⟨fr, er⟩ := mul64_err md ft fa (le_trans (abs_mul_le ht b2) (by linarith))
  refine ⟨fr, ?_⟩
  rw [ex2]
  exact m1_mid_aux hu hu2 (ru_ge md) eta_pos.le hη hz8 (by rw [hz]; linarith) et ea er

/-- **C63.** `expm1(double)`. For every finite argument up to 709.782712893384 outside `(-1024, -512]`, in every rounding mode, the result is finite and
differs from `e^x - 1` by at most `8 · ru` relative when `|x| ≤ 1/16` or `|x| ≥ 1/4`, where `ru` is `2^-53` in round-to-nearest and `2^-52` otherwise, plus
`2^-1072`. What is missing: between `1/16` and `1/4` only `2000 · ru` holds (see `C63_expm1_series_wrong`), and on `(-1024, -512]` the result is wrong
(see `C63_expm1_negative_wrong`). -/
theorem C63_expm1_accuracy_partial (md : Mode) {x : ℕ} (hx : binary64.Finite x) (hle : binary64.val x ≤ binary64.val 0x40862E42FEFA39EF)
    (hn : ¬ (-1024 < binary64.val x ∧ binary64.val x ≤ -512)) :
    binary64.Finite (CC.expm1Double md x) ∧
      |binary64.val (CC.expm1Double md x) - (Real.exp (binary64.val x) - 1)| ≤
        (if |binary64.val x| ≤ 1 / 16 ∨ 1 / 4 ≤ |binary64.val x| then 8 else 2000) * (if md = .nearest then 1 / 2 ^ 53 else 1 / 2 ^ 52) * |Real.exp (binary64.val x) - 1| +
          (2 : ℝ) ^ (-1072 : ℤ) := by
  have hr : (if md = .nearest then 1 / 2 ^ 53 else 1 / 2 ^ 52) = ru md := rfl
  have he : (2 : ℝ) ^ (-1072 : ℤ) = 4 * eta := by
    rw [eta_eq, show (-1072 : ℤ) = 2 + -1074 from rfl, zpow_add₀ (by norm_num)]; norm_num
  rw [hr, he]
  have hu := ru_pos md
  have hη := eta_pos
  have hu0 : 0 ≤ ru md * |exp (binary64.val x) - 1| := by positivity
  obtain ⟨k1, k2, k3, k4⟩ := expm1Double_finite md hx
  by_cases c1 : 1 / 4 ≤ |binary64.val x|
  · rw [if_pos (Or.inr c1), k2 c1]
    obtain ⟨p, q⟩ := (expm1Kernel_cases md hx c1).1 hle hn
    exact ⟨p, by linarith⟩
  by_cases c2 : |binary64.val x| ≤ 1 / 16
  · rw [if_pos (Or.inl c2)]
    by_cases c0 : binary64.val x = 0
    · rw [k1 c0, c0]
      refine ⟨hx, ?_⟩
      rw [Real.exp_zero]; simp only [sub_self, abs_zero, mul_zero, zero_add]; linarith
    · rw [k4 c0 c2]
      obtain ⟨p, q⟩ := m1_series md hx (by linarith)
      exact ⟨p, m1_small_aux hu (ru_ge md) c2 q⟩
  · rw [if_neg (by tauto)]
    obtain ⟨p, q⟩ := m1_mid md hx (by linarith) (by linarith)
    exact ⟨p, by linarith⟩

-- expm1(1), expm1(0.01), expm1(-600) excluded, expm1(-2000) = -1
example : binary64.Finite 0x3FF0000000000000 ∧ CC.expm1Double .nearest 0x3FF0000000000000 = 0x3FFB7E151628AED2 := by decide +kernel
example : binary64.Finite 0x3F847AE147AE147B ∧ CC.expm1Double .nearest 0x3F847AE147AE147B = 0x3F84952E9791133F := by decide +kernel
example : binary64.Finite 0xC09F400000000000 ∧ CC.expm1Double .nearest 0xC09F400000000000 = 0xBFF0000000000000 := by decide +kernel

/-- **C63.** Above 709.782712893384, where `e^x` is at least `2^1024`, the result is the overflow result of the rounding mode. -/
theorem C63_expm1_overflow (md : Mode) {x : ℕ} (hx : binary64.Finite x) (hgt : binary64.val 0x40862E42FEFA39EF < binary64.val x) :
    CC.expm1Double md x = if md = .nearest ∨ md = .up then 0x7FF0000000000000 else 0x7FEFFFFFFFFFFFFF := by
  have h700 : (700 : ℝ) ≤ binary64.val 0x40862E42FEFA39EF := by rw [val_expMax]; norm_num
  have h14 : 1 / 4 ≤ |binary64.val x| := by rw [abs_of_pos (by linarith)]; linarith
  rw [(expm1Double_finite md hx).2.1 h14, (expm1Kernel_cases md hx h14).2.1 hgt]
  cases md <;> decide +kernel

example : binary64.Finite 0x40862E42FEFA39F0 ∧ CC.expm1Double .nearest 0x40862E42FEFA39F0 = 0x7FF0000000000000 := by decide +kernel

/-- **C63.** Special arguments: `expm1(±0) = ±0`, `expm1(+∞) = +∞`, `expm1(-∞) = -1`, and a NaN gives a NaN. -/
theorem C63_expm1_special (md : Mode) :
    CC.expm1Double md 0 = 0 ∧ CC.expm1Double md 0x8000000000000000 = 0x8000000000000000 ∧
      CC.expm1Double md 0x7FF0000000000000 = 0x7FF0000000000000 ∧ CC.expm1Double md 0xFFF0000000000000 = 0xBFF0000000000000 ∧
      ∀ x, binary64.IsNaN x → binary64.IsNaN (CC.expm1Double md x) := by
  refine ⟨by cases md <;> decide +kernel, by cases md <;> decide +kernel, by cases md <;> decide +kernel, by cases md <;> decide +kernel, ?_⟩
  intro x hx
  unfold CC.expm1Double
  have h1 : binary64.nanB x = true := (binary64.nanB_iff hx.1).2 hx
  rw [if_neg (by unfold heq; rw [h1]; simp), if_pos (by rw [CC.isnan_eq]; exact h1)]
  exact binary64.isNaN_qnan

example : binary64.IsNaN 0x7FF8000000000001 := by decide +kernel

/-- **C63, violated.** For every argument in `(-1024, -512]`, in every rounding mode, `expm1` returns a nonnegative number, although `e^x - 1` lies within
`2^-500` of `-1`: the branch for exponents near the edge of the range forgets to subtract 1. -/
theorem C63_expm1_negative_wrong (md : Mode) {x : ℕ} (hx : binary64.Finite x) (h : -1024 < binary64.val x ∧ binary64.val x ≤ -512) :
    binary64.Finite (CC.expm1Double md x) ∧ 0 ≤ binary64.val (CC.expm1Double md x) ∧ Real.exp (binary64.val x) - 1 < -1 + (2 : ℝ) ^ (-500 : ℤ) := by
  have h14 : 1 / 4 ≤ |binary64.val x| := by rw [abs_of_neg (by linarith [h.2])]; linarith [h.2]
  rw [(expm1Double_finite md hx).2.1 h14]
  obtain ⟨p, q⟩ := (expm1Kernel_cases md hx h14).2.2 h
  refine ⟨p, q, ?_⟩
  have h1 := exp_le_zpow (X := binary64.val x) (-600) (by have := log2_bd.2; push_cast; linarith [h.2])
  have h2 := two_zpow_lt (show (-600 : ℤ) < -500 by norm_num)
  linarith

-- expm1(-600) = 0x1.8a... · 2^-866, not -1
example : binary64.Finite 0xC082C00000000000 ∧ CC.expm1Double .nearest 0xC082C00000000000 ≠ 0xBFF0000000000000 := by decide +kernel

theorem val_m14 : binary64.val 0xBFCFFFFFFFFFFFFF = -((2 ^ 53 - 1) / 2 ^ 55) := by
  rw [lit64 true (2 ^ 53 - 1) 55 (by decide +kernel) (by decide +kernel) (by decide +kernel) (by decide +kernel)]; norm_num [sg]

/-- **C63, violated.** The series used below 1/4 in magnitude stops too early: just above `-1/4` the rounded-to-nearest result is off by more than
1400 · 2^-53 relative. -/
theorem C63_expm1_series_wrong :
    binary64.Finite 0xBFCFFFFFFFFFFFFF ∧
      1400 / 2 ^ 53 * |Real.exp (binary64.val 0xBFCFFFFFFFFFFFFF) - 1| <
        |binary64.val (CC.expm1Double .nearest 0xBFCFFFFFFFFFFFFF) - (Real.exp (binary64.val 0xBFCFFFFFFFFFFFFF) - 1)| := by
  refine ⟨by decide +kernel, ?_⟩
  have e : CC.expm1Double .nearest 0xBFCFFFFFFFFFFFFF = 13820509598832784074 := by decide +kernel
  have v : binary64.val 13820509598832784074 = -(7969541687472842 / 2 ^ 55) := by
    rw [lit64 true 7969541687472842 55 (by decide +kernel) (by decide +kernel) (by decide +kernel) (by decide +kernel)]; norm_num [sg]
  rw [e, v, val_m14]
  have hb := Real.exp_bound (x := -((2 ^ 53 - 1) / 2 ^ 55)) (by rw [abs_neg, abs_of_pos (by norm_num)]; norm_num) (n := 12) (by norm_num)
  simp only [Finset.sum_range_succ, Finset.sum_range_zero, Nat.factorial] at hb
  rw [abs_neg, abs_of_pos (show (0 : ℝ) < (2 ^ 53 - 1) / 2 ^ 55 by norm_num)] at hb
  generalize exp (-((2 ^ 53 - 1) / 2 ^ 55)) = y at hb ⊢
  have hb' := abs_le.1 hb
  norm_num at hb'
  have hy1 : y ≤ 1 := by linarith
  rw [abs_of_nonpos (show y - 1 ≤ 0 by linarith)]
  refine lt_of_lt_of_le ?_ (le_abs_self _) 
  norm_num
  linarith

end Verif
