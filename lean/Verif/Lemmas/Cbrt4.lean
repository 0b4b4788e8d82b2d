import Verif.Lemmas.Cbrt3
import Verif.Props.Cbrt

/-!
# Perfect cubes, for double and float
-/

namespace Verif
open Fmt Real

/-- a positive multiple of a power of two has an odd part -/
theorem cube_odd_part {g : ℤ} {v : ℝ} (hm : Mult g v) (hv : 0 < v) : ∃ (m : ℕ) (j : ℤ), m % 2 = 1 ∧ v = (m : ℝ) * 2 ^ j ∧ g ≤ j := by
  obtain ⟨a, rfl⟩ := hm
  have hp := two_zpow_pos g
  have ha : 0 < a := by
    by_contra h
    have : (a : ℝ) ≤ 0 := by exact_mod_cast not_lt.1 h
    have := mul_nonpos_of_nonpos_of_nonneg this hp.le
    linarith
  obtain ⟨n, rfl⟩ : ∃ n : ℕ, a = n := ⟨a.toNat, by omega⟩
  obtain ⟨e, m, h1, h2⟩ := Nat.exists_eq_two_pow_mul_odd (n := n) (by omega)
  refine ⟨m, g + e, by obtain ⟨q, rfl⟩ := h1; omega, ?_, by omega⟩
  rw [h2]; push_cast
  rw [zpow_add₀ (by norm_num), zpow_natCast]; ring

/-- if a number and its cube are floating-point numbers, the number has few significant bits -/
theorem cube_bits (f : Fmt) {x r : ℕ} (h0 : 0 < f.val r) (h : f.val r ^ 3 = f.val x) :
    ∃ (m : ℕ) (j : ℤ), f.val r = (m : ℝ) * 2 ^ j ∧ m ^ 3 < 2 ^ (f.F + 1) ∧ 0 < m ∧ f.emin ≤ 3 * j := by
  obtain ⟨m, j, hm, hv, -⟩ := cube_odd_part (f.mult_ce r) h0
  obtain ⟨a, ha, ha2, -⟩ := f.val_ce x
  have hce := f.ce_ge x
  have e : (m : ℝ) ^ 3 * 2 ^ (3 * j) = a * 2 ^ f.ce x := by
    rw [← ha, ← h, hv, mul_pow, ← zpow_natCast ((2 : ℝ) ^ j), ← zpow_mul]; congr 2; push_cast; ring
  have hle : f.ce x ≤ 3 * j := by
    by_contra hc
    have e2 : (m : ℝ) ^ 3 = a * 2 ^ (f.ce x - 3 * j) := by
      rw [zpow_sub₀ (by norm_num), mul_div_assoc', ← e, mul_div_assoc, div_self (two_zpow_pos _).ne', mul_one]
    obtain ⟨n, hn⟩ : ∃ n : ℕ, f.ce x - 3 * j = n + 1 := ⟨(f.ce x - 3 * j - 1).toNat, by omega⟩
    rw [hn, zpow_add_one₀ (by norm_num), zpow_natCast] at e2
    have e3 : (m : ℤ) ^ 3 = a * (2 ^ n * 2) := by exact_mod_cast e2
    have o : (m : ℤ) ^ 3 % 2 = 1 := by
      rcases Nat.odd_iff.2 hm with ⟨q, rfl⟩
      push_cast
      rw [show (2 * (q : ℤ) + 1) ^ 3 = 2 * (4 * q ^ 3 + 6 * q ^ 2 + 3 * q) + 1 by ring]
      omega
    rw [e3, show a * (2 ^ n * 2) = 2 * (a * 2 ^ n) by ring] at o
    omega
  refine ⟨m, j, hv, ?_, by omega, by omega⟩
  obtain ⟨n, hn⟩ : ∃ n : ℕ, 3 * j - f.ce x = n := ⟨(3 * j - f.ce x).toNat, by omega⟩
  have e2 : (m : ℝ) ^ 3 * 2 ^ n = a := by
    have : (m : ℝ) ^ 3 * 2 ^ (3 * j - f.ce x) = a := by
      rw [zpow_sub₀ (by norm_num), mul_div_assoc', e, mul_div_assoc, div_self (two_zpow_pos _).ne', mul_one]
    rw [hn, zpow_natCast] at this
    exact this
  have e3 : (m : ℤ) ^ 3 * 2 ^ n = a := by exact_mod_cast e2
  have e4 : (m : ℤ) ^ 3 ≤ a := by
    rw [← e3]
    have : (1 : ℤ) ≤ 2 ^ n := by exact_mod_cast Nat.one_le_two_pow
    have := mul_le_mul_of_nonneg_left this (show (0 : ℤ) ≤ (m : ℤ) ^ 3 by positivity)
    linarith
  have : (m : ℤ) ^ 3 < 2 ^ (f.F + 1) := lt_of_le_of_lt e4 (lt_of_le_of_lt (le_abs_self a) ha2)
  exact_mod_cast this

theorem binade {m W : ℕ} {j : ℤ} (hm : 0 < m) (hW : m < 2 ^ (W + 1)) :
    ∃ k : ℤ, (2 : ℝ) ^ k ≤ (m : ℝ) * 2 ^ j ∧ (m : ℝ) * 2 ^ j < 2 ^ (k + 1) ∧ Mult (k - W) ((m : ℝ) * 2 ^ j) := by
  have h1 := Nat.pow_log_le_self 2 hm.ne'
  have h2 := Nat.lt_pow_succ_log_self (b := 2) (by norm_num) m
  have h3 : Nat.log 2 m < W + 1 := Nat.log_lt_of_lt_pow hm.ne' hW
  have hj := two_zpow_pos j
  refine ⟨Nat.log 2 m + j, ?_, ?_, ?_⟩
  · rw [zpow_add₀ (by norm_num), zpow_natCast]
    exact mul_le_mul_of_nonneg_right (by exact_mod_cast h1) hj.le
  · rw [show ((Nat.log 2 m : ℕ) : ℤ) + j + 1 = ((Nat.log 2 m + 1 : ℕ) : ℤ) + j by push_cast; ring, zpow_add₀ (by norm_num), zpow_natCast]
    exact mul_lt_mul_of_pos_right (by exact_mod_cast h2) hj
  · exact Mult.weaken (g := j) ⟨m, by push_cast; ring⟩ (by omega)

theorem cbrt_exact64 (md : Mode) {ax r : ℕ} (hax : binary64.Finite ax) (hr : 0 < binary64.val r) (h : binary64.val r ^ 3 = binary64.val ax) :
    binary64.Finite (cbrtMain binary64 (CC.expDouble md) (CC.logDouble md) 0x4000000000000000 0x4008000000000000 md ax) ∧
      binary64.val (cbrtMain binary64 (CC.expDouble md) (CC.logDouble md) 0x4000000000000000 0x4008000000000000 md ax) = binary64.val r := by
  have hpos : 0 < binary64.val ax := by rw [← h]; positivity
  obtain ⟨fy, st⟩ := cbrt_start64 md hax hpos
  obtain ⟨r1, r2⟩ := val_range64 hax hpos
  obtain ⟨l1, l2⟩ := log_range r1 r2
  obtain ⟨c1, c2⟩ := exp_range (l := log (binary64.val ax) / 3) (a := -358) (b := 342) (by push_cast at l1 ⊢; linarith [log2_lo.1]) (by push_cast at l2 ⊢; linarith [log2_lo.1])
  rw [← cube_root_eq hpos h] at st c1 c2
  obtain ⟨m, j, hv, hm, hm0, -⟩ := cube_bits binary64 hr h
  have hm18 : m < 2 ^ (17 + 1) := by
    by_contra hc
    have : (2 ^ 18) ^ 3 ≤ m ^ 3 := Nat.pow_le_pow_left (not_lt.1 hc) 3
    have e : binary64.F + 1 = 53 := by decide
    rw [e] at hm
    norm_num at *; omega
  obtain ⟨k, k1, k2, hW⟩ := binade (j := j) hm0 hm18
  rw [← hv] at k1 k2 hW
  clear hv hm hm0 hm18 l1 l2 r1 r2
  unfold cbrtMain
  have hu := ru_pos md
  have hu2 := ru_le md
  have hF : (binary64.F : ℤ) = 52 := by decide
  have he : binary64.emin = -1074 := by decide
  have hb : (binary64.bias : ℤ) = 1023 := by decide
  have hk1 : -358 < k + 1 := two_zpow_lt_iff.1 (lt_of_le_of_lt c1 k2)
  have hk2 : k ≤ 342 := by
    by_contra hc
    have := two_zpow_lt (show (342 : ℤ) < k by omega)
    linarith
  rw [← fu64] at st hu hu2
  generalize CC.expDouble md (binary64.hdiv md (CC.logDouble md ax) 0x4008000000000000) = y at *
  generalize binary64.val r = c at *
  have b6 : (2 : ℝ) ^ (-358 : ℤ) * 2 ^ (-358 : ℤ) ≤ c ^ 2 := by rw [pow_two]; exact mul_le_mul c1 c1 (two_zpow_pos _).le hr.le
  have b7 : c ^ 2 ≤ (2 : ℝ) ^ (342 : ℤ) * 2 ^ (342 : ℤ) := by rw [pow_two]; exact mul_le_mul c2 c2 hr.le (two_zpow_pos _).le
  rw [← zpow_add₀ (by norm_num)] at b6 b7
  have four : ∀ n : ℤ, 4 * (2 : ℝ) ^ n = 2 ^ (n + 2) := fun n => by rw [zpow_add₀ (by norm_num)]; norm_num; ring
  have hp := two_zpow_pos k
  have hkk := two_zpow_succ k
  have w1 : (2 : ℝ) ^ (k - ((17 : ℕ) : ℤ)) = 2 ^ k / 2 ^ 17 := by rw [zpow_sub₀ (by norm_num)]; norm_cast
  have w2 : (2 : ℝ) ^ (k - (binary64.F : ℤ)) = 2 ^ k / 2 ^ 52 := by rw [hF, zpow_sub₀ (by norm_num)]; norm_cast
  have hs : (binary64.val y - c) ^ 2 ≤ (fu binary64 md * 563 * c) ^ 2 := by rw [← sq_abs]; exact pow_le_pow_left₀ (abs_nonneg _) st 2
  have hs2 : (fu binary64 md * 563 * c) ^ 2 = fu binary64 md * (563 * 563 * fu binary64 md) * c * c := by ring
  rw [hs2] at hs
  have hs3 : fu binary64 md * (563 * 563 * fu binary64 md) * c ≤ fu binary64 md * (1 / 2 ^ 32) * 2 ^ k := by
    have a1 : 563 * 563 * fu binary64 md * c ≤ (563 * 563 * (1 / 2 ^ 52)) * (2 * 2 ^ k) := mul_le_mul (by linarith) (by linarith) hr.le (by norm_num)
    have a2 := mul_le_mul_of_nonneg_left a1 hu.le
    refine le_trans (le_of_eq (by ring)) (a2.trans ?_)
    have := mul_pos hu hp
    norm_num; linarith
  have hs4 := hs.trans (mul_le_mul_of_nonneg_right hs3 hr.le)
  refine cbrt_step_exact (lo := 2 ^ (-1000 : ℤ)) (hi := 2 ^ (1000 : ℤ)) (k := k) (W := 17) (by
    unfold minNormal; exact two_zpow_le (by rw [show binary64.bias = 1023 from by decide]; norm_num)) big_le (two_zpow_pos _) (hu2.trans (by norm_num)) hax hr h.symm fy
    (st.trans (mul_le_mul_of_nonneg_right (by norm_num at hu2 ⊢; linarith) hr.le)) two64 three64 ?_ ?_ ?_ ?_ k1 k2 hW (by norm_num) (by decide) (by omega) (by omega) (by omega) ?_ ?_ ?_
  · rw [four]; exact (two_zpow_le (by norm_num)).trans c1
  · have := mul_le_mul_of_nonneg_left c2 (show (0 : ℝ) ≤ 4 by norm_num)
    rw [four] at this; exact this.trans (two_zpow_le (by norm_num))
  · rw [four]; exact (two_zpow_le (by norm_num)).trans b6
  · have := mul_le_mul_of_nonneg_left b7 (show (0 : ℝ) ≤ 4 by norm_num)
    rw [four] at this; exact this.trans (two_zpow_le (by norm_num))
  · rw [w1]
    have := mul_pos (mul_pos hu hp) hr
    norm_num at hs4 ⊢; linarith
  · rw [w1, w2]
    have a1 : fu binary64 md * (1 / 2 ^ 32) * 2 ^ k * c ≤ 1 / 2 ^ 52 * (1 / 2 ^ 32) * 2 ^ k * (2 * 2 ^ k) :=
      mul_le_mul (mul_le_mul_of_nonneg_right (mul_le_mul_of_nonneg_right hu2 (by norm_num)) hp.le) (by linarith) hr.le (by positivity)
    have := mul_pos hp hp
    norm_num at hs4 a1 ⊢; linarith
  · rw [w1, w2]
    have a1 : fu binary64 md * 563 * c ≤ 1 / 2 ^ 52 * 563 * (2 * 2 ^ k) := mul_le_mul (mul_le_mul_of_nonneg_right hu2 (by norm_num)) (by linarith) hr.le (by norm_num)
    norm_num at st a1 ⊢; linarith

theorem cbrt_exact32 (md : Mode) {ax r : ℕ} (hax : binary32.Finite ax) (hr : 0 < binary32.val r) (h : binary32.val r ^ 3 = binary32.val ax) :
    binary32.Finite (cbrtMain binary32 (CC.expFloat md) (CC.logFloat md) 0x40000000 0x40400000 md ax) ∧
      binary32.val (cbrtMain binary32 (CC.expFloat md) (CC.logFloat md) 0x40000000 0x40400000 md ax) = binary32.val r := by
  have hpos : 0 < binary32.val ax := by rw [← h]; positivity
  have he : binary32.emin = -149 := by decide
  obtain ⟨m, j, hv, hm, hm0, hj⟩ := cube_bits binary32 hr h
  obtain ⟨r1, r2⟩ := val_range32 hax hpos
  have r1' : (2 : ℝ) ^ (-147 : ℤ) ≤ binary32.val ax := by
    have h1 : (2 : ℝ) ^ (-49 : ℤ) ≤ binary32.val r := by
      rw [hv]
      have a1 := two_zpow_le (show (-49 : ℤ) ≤ j by omega)
      have a2 : (1 : ℝ) ≤ m := by exact_mod_cast hm0
      have a3 := mul_le_mul_of_nonneg_right a2 (two_zpow_pos j).le
      linarith
    have h2 := pow_le_pow_left₀ (two_zpow_pos _).le h1 3
    rw [h, ← zpow_natCast, ← zpow_mul] at h2
    exact h2
  obtain ⟨l1, l2⟩ := log_range r1' r2
  obtain ⟨t1, t2⟩ := log2_bd
  have hl : |log (binary32.val ax)| ≤ 101894 / 1000 := by push_cast at l1 l2; rw [abs_le]; constructor <;> linarith
  obtain ⟨fy, st⟩ := cbrt_start32 md hax hpos (D := 892 / 10 + 5 / 100) (E := 907 / 10 + 5 / 100) hl (by norm_num) (by norm_num) (by norm_num) (by norm_num) (by norm_num)
  obtain ⟨c1, c2⟩ := exp_range (l := log (binary32.val ax) / 3) (a := -49) (b := 43) (by push_cast at l1 ⊢; linarith) (by push_cast at l2 ⊢; linarith)
  rw [← cube_root_eq hpos h] at st c1 c2
  have hm8 : m < 2 ^ (7 + 1) := by
    by_contra hc
    have : (2 ^ 8) ^ 3 ≤ m ^ 3 := Nat.pow_le_pow_left (not_lt.1 hc) 3
    have e : binary32.F + 1 = 24 := by decide
    rw [e] at hm
    norm_num at *; omega
  obtain ⟨k, k1, k2, hW⟩ := binade (j := j) hm0 hm8
  rw [← hv] at k1 k2 hW
  clear hv hm hm0 hm8 l1 l2 r1 r2 hj r1' t1 t2 hl
  unfold cbrtMain
  have hu := ruf_pos md
  have hu2 := ruf_le md
  have hF : (binary32.F : ℤ) = 23 := by decide
  have hb : (binary32.bias : ℤ) = 127 := by decide
  have hk1 : -49 < k + 1 := two_zpow_lt_iff.1 (lt_of_le_of_lt c1 k2)
  have hk2 : k ≤ 43 := by
    by_contra hc
    have := two_zpow_lt (show (43 : ℤ) < k by omega)
    linarith
  rw [← fu32] at st hu hu2
  generalize CC.expFloat md (binary32.hdiv md (CC.logFloat md ax) 0x40400000) = y at *
  generalize binary32.val r = c at *
  have b6 : (2 : ℝ) ^ (-49 : ℤ) * 2 ^ (-49 : ℤ) ≤ c ^ 2 := by rw [pow_two]; exact mul_le_mul c1 c1 (two_zpow_pos _).le hr.le
  have b7 : c ^ 2 ≤ (2 : ℝ) ^ (43 : ℤ) * 2 ^ (43 : ℤ) := by rw [pow_two]; exact mul_le_mul c2 c2 hr.le (two_zpow_pos _).le
  rw [← zpow_add₀ (by norm_num)] at b6 b7
  have four : ∀ n : ℤ, 4 * (2 : ℝ) ^ n = 2 ^ (n + 2) := fun n => by rw [zpow_add₀ (by norm_num)]; norm_num; ring
  have hp := two_zpow_pos k
  have hkk := two_zpow_succ k
  have w1 : (2 : ℝ) ^ (k - ((7 : ℕ) : ℤ)) = 2 ^ k / 2 ^ 7 := by rw [zpow_sub₀ (by norm_num)]; norm_cast
  have w2 : (2 : ℝ) ^ (k - (binary32.F : ℤ)) = 2 ^ k / 2 ^ 23 := by rw [hF, zpow_sub₀ (by norm_num)]; norm_cast
  have hup : c + (2 : ℝ) ^ (k - ((7 : ℕ) : ℤ)) ≤ 2 ^ (k + 1) := hW.lt_imp ((Mult.two_zpow (k + 1)).weaken (by omega)) k2
  rw [w1, hkk] at hup
  have hup : c ≤ 255 / 128 * 2 ^ k := by linarith
  have hs : (binary32.val y - c) ^ 2 ≤ (fu binary32 md * (907 / 10 + 5 / 100) * c) ^ 2 := by rw [← sq_abs]; exact pow_le_pow_left₀ (abs_nonneg _) st 2
  have hs2 : (fu binary32 md * (907 / 10 + 5 / 100) * c) ^ 2 = fu binary32 md * ((907 / 10 + 5 / 100) * (907 / 10 + 5 / 100) * fu binary32 md) * c * c := by ring
  rw [hs2] at hs
  have hs3 : fu binary32 md * ((907 / 10 + 5 / 100) * (907 / 10 + 5 / 100) * fu binary32 md) * c ≤ fu binary32 md * ((907 / 10 + 5 / 100) * (907 / 10 + 5 / 100) / 2 ^ 23 * (255 / 128)) * 2 ^ k := by
    have a1 : (907 / 10 + 5 / 100) * (907 / 10 + 5 / 100) * fu binary32 md * c ≤ ((907 / 10 + 5 / 100) * (907 / 10 + 5 / 100) * (1 / 2 ^ 23)) * (255 / 128 * 2 ^ k) :=
      mul_le_mul (by linarith) hup hr.le (by norm_num)
    have a2 := mul_le_mul_of_nonneg_left a1 hu.le
    refine le_trans (le_of_eq (by ring)) (a2.trans (le_of_eq (by ring)))
  have hs4 := hs.trans (mul_le_mul_of_nonneg_right hs3 hr.le)
  refine cbrt_step_exact (lo := 2 ^ (-120 : ℤ)) (hi := 2 ^ (110 : ℤ)) (k := k) (W := 7) (by
    unfold minNormal; exact two_zpow_le (by rw [show binary32.bias = 127 from by decide]; norm_num)) bigf_le (two_zpow_pos _) hu2 hax hr h.symm fy
    (st.trans (mul_le_mul_of_nonneg_right (by norm_num at hu2 ⊢; linarith) hr.le)) two32 three32 ?_ ?_ ?_ ?_ k1 k2 hW (by norm_num) (by decide) (by omega) (by omega) (by omega) ?_ ?_ ?_
  · rw [four]; exact (two_zpow_le (by norm_num)).trans c1
  · have := mul_le_mul_of_nonneg_left c2 (show (0 : ℝ) ≤ 4 by norm_num)
    rw [four] at this; exact this.trans (two_zpow_le (by norm_num))
  · rw [four]; exact (two_zpow_le (by norm_num)).trans b6
  · have := mul_le_mul_of_nonneg_left b7 (show (0 : ℝ) ≤ 4 by norm_num)
    rw [four] at this; exact this.trans (two_zpow_le (by norm_num))
  · rw [w1]
    have := mul_pos (mul_pos hu hp) hr
    norm_num at hs4 ⊢; linarith
  · rw [w1, w2]
    have a1 : fu binary32 md * ((907 / 10 + 5 / 100) * (907 / 10 + 5 / 100) / 2 ^ 23 * (255 / 128)) * 2 ^ k * c ≤ 1 / 2 ^ 23 * ((907 / 10 + 5 / 100) * (907 / 10 + 5 / 100) / 2 ^ 23 * (255 / 128)) * 2 ^ k * (255 / 128 * 2 ^ k) :=
      mul_le_mul (mul_le_mul_of_nonneg_right (mul_le_mul_of_nonneg_right hu2 (by norm_num)) hp.le) hup hr.le (by positivity)
    have := mul_pos hp hp
    norm_num at hs4 a1 ⊢; linarith
  · rw [w1, w2]
    have a1 : fu binary32 md * (907 / 10 + 5 / 100) * c ≤ 1 / 2 ^ 23 * (907 / 10 + 5 / 100) * (2 * 2 ^ k) := mul_le_mul (mul_le_mul_of_nonneg_right hu2 (by norm_num)) (by linarith) hr.le (by norm_num)
    norm_num at st a1 ⊢; linarith

end Verif
