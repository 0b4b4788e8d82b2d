import Verif.Lemmas.PowK3
import Verif.Lemmas.LogE4

/-!
# The tables and polynomials of the pow kernel as reals
-/

namespace Verif
open Fmt Real

theorem log_row {R T : ℤ} {cn cd : ℕ} {L : ℝ} (hT0 : 0 ≤ T) (hT1 : T ≤ 2 ^ 160) (hcd : 0 < cd) (hL : log ((cn : ℝ) / cd) = L)
    (h : logChk 104 cn cd (T.natAbs * ln2N) (2 ^ 320) = true) : |(T : ℝ) / 2 ^ 160 * log 2 - L| ≤ 1 / 2 ^ 102 := by
  have hln : ln2N ≤ 2 ^ 160 := by decide +kernel
  have hTn : ((T.natAbs : ℕ) : ℤ) = T := Int.natAbs_of_nonneg hT0
  have k := logChk_sound h hcd (by norm_num) (by
    have h1 : T.natAbs ≤ 2 ^ 160 := by zify; rw [abs_of_nonneg hT0]; exact hT1
    calc T.natAbs * ln2N ≤ 2 ^ 160 * 2 ^ 160 := Nat.mul_le_mul h1 hln
      _ = 2 ^ 320 := by rw [← pow_add]) (by norm_num)
  rw [hL] at k
  have e : (((T.natAbs * ln2N : ℕ) : ℝ) / ((2 ^ 320 : ℕ) : ℝ)) = (T : ℝ) / 2 ^ 160 * (ln2N / 2 ^ 160) := by
    have : ((T.natAbs : ℕ) : ℝ) = (T : ℝ) := by rw [Nat.cast_natAbs, Int.cast_abs, abs_of_nonneg (by exact_mod_cast hT0)]
    rw [Nat.cast_mul, this, Nat.cast_pow, Nat.cast_ofNat]
    rw [show (T : ℝ) / 2 ^ 160 * (ln2N / 2 ^ 160) = (T * ln2N) / (2 ^ 160 * 2 ^ 160) by ring, ← pow_add]
  rw [e] at k
  have hn := ln2N_near
  generalize (ln2N : ℝ) / 2 ^ 160 = ℓ at *
  have t0 : |(T : ℝ) / 2 ^ 160| ≤ 1 := by
    rw [abs_of_nonneg (by have : (0 : ℝ) ≤ T := by exact_mod_cast hT0
                          positivity), div_le_one (by norm_num)]
    exact_mod_cast hT1
  generalize (T : ℝ) / 2 ^ 160 = τ at *
  rw [show τ * log 2 - L = τ * (log 2 - ℓ) + -(L - τ * ℓ) by ring]
  refine (abs_add_le' (abs_mul_le t0 hn) ((abs_neg _).trans_le k)).trans ?_
  norm_num

theorem powRow_spec {i : ℕ} (hi : i < 128) :
    binary64.Finite (CC.powRD.getD i 0) ∧ binary64.Finite (CC.powCD.getD i 0) ∧ binary64.Finite (CC.powLogHi.getD i 0) ∧ binary64.Finite (CC.powLogMid.getD i 0) ∧
    binary64.Finite (CC.powLogLo.getD i 0) ∧ Mult (-8) (binary64.val (CC.powRD.getD i 0)) ∧ 1 / 2 ≤ binary64.val (CC.powRD.getD i 0) ∧ binary64.val (CC.powRD.getD i 0) ≤ 1 ∧
    binary64.val (CC.powCD.getD i 0) = binary64.val (CC.powRD.getD i 0) * (1 + i / 128) - 1 ∧
    -(1 / 2 ^ 8) ≤ binary64.val (CC.powRD.getD i 0) * (1 + i / 128) - 1 ∧ binary64.val (CC.powRD.getD i 0) * (1 + (i + 1) / 128) - 1 ≤ 1 / 2 ^ 7 ∧
    Mult (-20) (binary64.val (CC.powLogHi.getD i 0)) ∧ 0 ≤ binary64.val (CC.powLogHi.getD i 0) ∧ binary64.val (CC.powLogHi.getD i 0) ≤ 1 ∧
    |binary64.val (CC.powLogMid.getD i 0)| ≤ 1 / 2 ^ 21 ∧ |binary64.val (CC.powLogLo.getD i 0)| ≤ 1 / 2 ^ 70 ∧
    |(binary64.val (CC.powLogHi.getD i 0) + binary64.val (CC.powLogMid.getD i 0) + binary64.val (CC.powLogLo.getD i 0)) * log 2 + log (binary64.val (CC.powRD.getD i 0))| ≤ 1 / 2 ^ 102 := by
  have h := powRow_ok i hi
  simp only [powRowOk, Bool.and_eq_true, decide_eq_true_eq, beq_iff_eq] at h
  obtain ⟨⟨⟨⟨⟨⟨⟨⟨⟨⟨⟨⟨⟨⟨⟨⟨⟨⟨h1, h2⟩, h3⟩, h4⟩, h5⟩, h6⟩, h7⟩, h8⟩, h9⟩, h10⟩, h11⟩, h12⟩, h13⟩, h14⟩, h15⟩, h16⟩, h17⟩, h18⟩, h19⟩ := h
  obtain ⟨f1, v1⟩ := intsOk_spec h1
  obtain ⟨f2, v2⟩ := intsOk_spec h2
  obtain ⟨f3, v3⟩ := intsOk_spec h3
  obtain ⟨f4, v4⟩ := intsOk_spec h4
  obtain ⟨f5, v5⟩ := intsOk_spec h5
  have m1 := mult_of_ints 152 8 v1 h6
  have m3 := mult_of_ints 140 20 v3 h12
  refine ⟨f1, f2, f3, f4, f5, m1, ?_⟩
  clear h1 h2 h3 h4 h5 h6 h12
  rw [v1, v2, v3, v4, v5] at *
  generalize ints 160 (CC.powRD.getD i 0) = R at *
  generalize ints 160 (CC.powCD.getD i 0) = C at *
  generalize ints 160 (CC.powLogHi.getD i 0) = H at *
  generalize ints 160 (CC.powLogMid.getD i 0) = M at *
  generalize ints 160 (CC.powLogLo.getD i 0) = L at *
  have r7 : (2 : ℝ) ^ 159 ≤ R := by exact_mod_cast h7
  have r8 : (R : ℝ) ≤ 2 ^ 160 := by exact_mod_cast h8
  have r9 : (C : ℝ) * 128 = R * (128 + i) - 128 * 2 ^ 160 := by exact_mod_cast h9
  have r10 : -(128 * 2 ^ 152 : ℝ) ≤ R * (128 + i) - 128 * 2 ^ 160 := by exact_mod_cast h10
  have r11 : (R : ℝ) * (129 + i) - 128 * 2 ^ 160 ≤ 128 * 2 ^ 153 := by exact_mod_cast h11
  have r13 : (0 : ℝ) ≤ H := by exact_mod_cast h13
  have r14 : (H : ℝ) ≤ 2 ^ 160 := by exact_mod_cast h14
  have r15 := natAbs_le_real h15
  have r16 := natAbs_le_real h16
  push_cast at r15 r16
  have Rp : 0 < R.toNat := by
    have : (0 : ℤ) < R := lt_of_lt_of_le (by norm_num) h7
    omega
  have Rn : ((R.toNat : ℕ) : ℝ) = R := by
    have : ((R.toNat : ℕ) : ℤ) = R := Int.toNat_of_nonneg (le_trans (by norm_num) h7)
    exact_mod_cast this
  have R0 : (0 : ℝ) < R := lt_of_lt_of_le (by norm_num) r7
  have hl : log (((2 ^ 160 : ℕ) : ℝ) / (R.toNat : ℕ)) = -log ((R : ℝ) / 2 ^ 160) := by
    rw [← log_inv, inv_div, Rn, Nat.cast_pow, Nat.cast_ofNat]
  rw [show (H + M + L).toNat = (H + M + L).natAbs by omega] at h19
  have k := log_row (R := R) h17 h18 Rp hl h19
  rw [Int.cast_add, Int.cast_add, add_div, add_div] at k
  obtain ⟨ρ, hρ⟩ : ∃ ρ : ℝ, ρ = (R : ℝ) / 2 ^ 160 := ⟨_, rfl⟩
  have eR : (R : ℝ) = ρ * 2 ^ 160 := by rw [hρ]; field_simp
  have a160 : |(2 : ℝ) ^ 160| = 2 ^ 160 := abs_of_pos (by positivity)
  refine ⟨?_, ?_, ?_, ?_, ?_, m3, by positivity, ?_, ?_, ?_, ?_⟩
  · rw [← hρ]; rw [eR] at r7; norm_num at r7 ⊢; linarith
  · rw [← hρ]; rw [eR] at r8; norm_num at r8 ⊢; linarith
  · rw [← hρ, div_eq_iff (by positivity)]; rw [eR] at r9; norm_num at r9 ⊢; linarith
  · rw [← hρ]; rw [eR] at r10; norm_num at r10 ⊢; linarith
  · rw [← hρ]; rw [eR] at r11; norm_num at r11 ⊢; linarith
  · rw [div_le_one (by positivity)]; exact r14
  · rw [abs_div, a160, div_le_iff₀ (by positivity)]; norm_num at r15 ⊢; linarith
  · rw [abs_div, a160, div_le_iff₀ (by positivity)]; norm_num at r16 ⊢; linarith
  · rw [sub_neg_eq_add] at k; exact k

theorem powRow2_spec {i : ℕ} (hi : i < 193) :
    binary64.Finite (CC.powR2.getD i 0) ∧ binary64.Finite (CC.powLog2Big.getD i 0) ∧ binary64.Finite (CC.powLog2Small.getD i 0) ∧
    Mult (-16) (binary64.val (CC.powR2.getD i 0)) ∧ 1 / 2 ≤ binary64.val (CC.powR2.getD i 0) ∧ binary64.val (CC.powR2.getD i 0) ≤ 2 ∧
    |binary64.val (CC.powR2.getD i 0) * (1 + (i - 64) / 16384) - 1| ≤ 1 / 2 ^ 16 ∧
    |binary64.val (CC.powLog2Big.getD i 0)| ≤ 1 / 2 ^ 6 ∧ |binary64.val (CC.powLog2Small.getD i 0)| ≤ 1 / 2 ^ 59 ∧
    |(binary64.val (CC.powLog2Big.getD i 0) + binary64.val (CC.powLog2Small.getD i 0)) * log 2 + log (binary64.val (CC.powR2.getD i 0))| ≤ 1 / 2 ^ 102 ∧
    ∀ m, (CC.split m (CC.powR2.getD i 0)).hi = CC.powR2.getD i 0 ∧ binary64.Finite (CC.split m (CC.powR2.getD i 0)).lo ∧ binary64.val (CC.split m (CC.powR2.getD i 0)).lo = 0 := by
  have h := powRow2_ok i hi
  simp only [powRow2Ok, Bool.and_eq_true, decide_eq_true_eq, beq_iff_eq, List.all_cons, List.all_nil, and_true] at h
  obtain ⟨⟨⟨⟨⟨⟨⟨⟨⟨⟨h1, h2⟩, h3⟩, h4⟩, h5⟩, h6⟩, h7⟩, h8⟩, h9⟩, h10⟩, h11⟩ := h
  have sp : ∀ m, (CC.split m (CC.powR2.getD i 0)).hi = CC.powR2.getD i 0 ∧ binary64.Finite (CC.split m (CC.powR2.getD i 0)).lo ∧ binary64.val (CC.split m (CC.powR2.getD i 0)).lo = 0 := by
    intro m
    have fin : ∀ x, binary64.mag x = 0 → x < 2 ^ 64 → binary64.Finite x ∧ binary64.val x = 0 := fun x hx hx2 =>
      ⟨(binary64.finite_iff x).2 ⟨hx2, by rw [hx]; decide⟩, (binary64.val_eq_zero_iff x).2 hx⟩
    obtain ⟨a1, a2, a3, a4⟩ := h11
    cases m
    · exact ⟨a1.1.1, fin _ a1.1.2 a1.2⟩
    · exact ⟨a2.1.1, fin _ a2.1.2 a2.2⟩
    · exact ⟨a3.1.1, fin _ a3.1.2 a3.2⟩
    · exact ⟨a4.1.1, fin _ a4.1.2 a4.2⟩
  clear h11
  obtain ⟨f1, v1⟩ := intsOk_spec h1
  obtain ⟨f2, v2⟩ := intsOk_spec h2
  obtain ⟨f3, v3⟩ := intsOk_spec h3
  have m1 := mult_of_ints 144 16 v1 h4
  refine ⟨f1, f2, f3, m1, ?_⟩
  clear h1 h2 h3 h4
  suffices H : 1 / 2 ≤ binary64.val (CC.powR2.getD i 0) ∧ binary64.val (CC.powR2.getD i 0) ≤ 2 ∧
    |binary64.val (CC.powR2.getD i 0) * (1 + (i - 64) / 16384) - 1| ≤ 1 / 2 ^ 16 ∧
    |binary64.val (CC.powLog2Big.getD i 0)| ≤ 1 / 2 ^ 6 ∧ |binary64.val (CC.powLog2Small.getD i 0)| ≤ 1 / 2 ^ 59 ∧
    |(binary64.val (CC.powLog2Big.getD i 0) + binary64.val (CC.powLog2Small.getD i 0)) * log 2 + log (binary64.val (CC.powR2.getD i 0))| ≤ 1 / 2 ^ 102 from
    ⟨H.1, H.2.1, H.2.2.1, H.2.2.2.1, H.2.2.2.2.1, H.2.2.2.2.2, sp⟩
  clear sp
  rw [v1, v2, v3] at *
  generalize ints 160 (CC.powR2.getD i 0) = R at *
  generalize ints 160 (CC.powLog2Big.getD i 0) = B at *
  generalize ints 160 (CC.powLog2Small.getD i 0) = S at *
  have r5 : (2 : ℝ) ^ 159 ≤ R := by exact_mod_cast h5
  have r6 : (R : ℝ) ≤ 2 ^ 161 := by exact_mod_cast h6
  have r7 := natAbs_le_real h7
  have r8 := natAbs_le_real h8
  have r9 := natAbs_le_real h9
  push_cast at r7 r8 r9
  have Rp : 0 < R.toNat := by
    have : (0 : ℤ) < R := lt_of_lt_of_le (by norm_num) h5
    omega
  have Rn : ((R.toNat : ℕ) : ℝ) = R := by
    have : ((R.toNat : ℕ) : ℤ) = R := Int.toNat_of_nonneg (le_trans (by norm_num) h5)
    exact_mod_cast this
  have R0 : (0 : ℝ) < R := lt_of_lt_of_le (by norm_num) r5
  have bT : (B + S).natAbs ≤ 2 ^ 160 := by
    refine (Int.natAbs_add_le _ _).trans ?_
    have : (2 : ℕ) ^ 154 + 2 ^ 101 ≤ 2 ^ 160 := by norm_num
    omega
  obtain ⟨ρ, hρ⟩ : ∃ ρ : ℝ, ρ = (R : ℝ) / 2 ^ 160 := ⟨_, rfl⟩
  have eR : (R : ℝ) = ρ * 2 ^ 160 := by rw [hρ]; field_simp
  have a160 : |(2 : ℝ) ^ 160| = 2 ^ 160 := abs_of_pos (by positivity)
  refine ⟨?_, ?_, ?_, ?_, ?_, ?_⟩
  · rw [← hρ]; rw [eR] at r5; norm_num at r5 ⊢; linarith
  · rw [← hρ]; rw [eR] at r6; norm_num at r6 ⊢; linarith
  · rw [← hρ]; rw [eR] at r7
    rw [abs_le] at r7 ⊢
    constructor
    · have := r7.1; norm_num at this ⊢; linarith
    · have := r7.2; norm_num at this ⊢; linarith
  · rw [abs_div, a160, div_le_iff₀ (by positivity)]; norm_num at r8 ⊢; linarith
  · rw [abs_div, a160, div_le_iff₀ (by positivity)]; norm_num at r9 ⊢; linarith
  · split_ifs at h10 with h64
    · simp only [Bool.and_eq_true, decide_eq_true_eq] at h10
      have hl : log (((R.toNat : ℕ) : ℝ) / ((2 ^ 160 : ℕ) : ℝ)) = log ((R : ℝ) / 2 ^ 160) := by rw [Rn, Nat.cast_pow, Nat.cast_ofNat]
      have k := log_row (R := R) (T := -(B + S)) (by linarith [h10.1]) (by have := h10.1; omega) (by norm_num) hl (by rw [Int.natAbs_neg]; exact h10.2)
      rw [Int.cast_neg, Int.cast_add, neg_div, add_div] at k
      rw [← abs_neg, show -(((B : ℝ) / 2 ^ 160 + S / 2 ^ 160) * log 2 + log ((R : ℝ) / 2 ^ 160)) = -((B : ℝ) / 2 ^ 160 + S / 2 ^ 160) * log 2 - log ((R : ℝ) / 2 ^ 160) by ring]
      exact k
    · simp only [Bool.and_eq_true, decide_eq_true_eq] at h10
      have hl : log (((2 ^ 160 : ℕ) : ℝ) / (R.toNat : ℕ)) = -log ((R : ℝ) / 2 ^ 160) := by
        rw [← log_inv, inv_div, Rn, Nat.cast_pow, Nat.cast_ofNat]
      have k := log_row (R := R) (T := B + S) h10.1 (by have := h10.1; omega) Rp hl h10.2
      rw [Int.cast_add, add_div, sub_neg_eq_add] at k
      exact k

end Verif
