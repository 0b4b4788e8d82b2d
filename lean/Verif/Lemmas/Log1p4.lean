import Verif.Lemmas.Log1p3

/-!
# log1p of double: the reduced kernel, for arguments just above `sqrt 2 - 1`
-/

namespace Verif
open Fmt Real

/-- bit patterns of positive numbers are ordered as the numbers -/
theorem pat_le_of64 {x y : ℕ} (hx : x < 2 ^ 63) (hy : y < 2 ^ 63) (h : binary64.val x ≤ binary64.val y) : x ≤ y := by
  by_contra hc
  have h1 := pat_le (show y + 1 ≤ x by omega) hx
  have h2 : binary64.val y < binary64.val (y + 1) := by
    rw [binary64.val_lt_iff_key]
    have key : ∀ P < 2 ^ 63, binary64.key P = P := by
      intro P hP
      have h1 : binary64.sgn P = false := by
        rw [show binary64.sgn P = decide (2 ^ 63 ≤ P) from rfl]; simpa using hP
      have h2 : binary64.mag P = P := by
        rw [show binary64.mag P = P % 2 ^ 63 from rfl]; exact Nat.mod_eq_of_lt hP
      unfold key
      rw [h1, h2]; simp
    rw [key _ hy, key _ (by omega)]
    push_cast; linarith
  linarith

theorem pat_half {U : ℕ} (h1 : 2 ^ 53 ≤ U) (h2 : U < 2047 * 2 ^ 52) : binary64.Finite (U - 2 ^ 52) ∧ binary64.val (U - 2 ^ 52) = binary64.val U / 2 := by
  have p := pat64 (P := U) (by omega) h2
  have q := pat64 (P := U - 2 ^ 52) (by omega) (by omega)
  refine ⟨q.1, ?_⟩
  rw [p.2, q.2, show (U - 2 ^ 52) % 2 ^ 52 = U % 2 ^ 52 by omega, show (((U - 2 ^ 52) / 2 ^ 52 : ℕ) : ℤ) - 1075 = (((U / 2 ^ 52 : ℕ) : ℤ) - 1075) - 1 by omega,
    zpow_sub_one₀ (by norm_num)]
  ring

theorem l1p_hu {U : ℕ} (h1 : 0x3FF6A09E00000000 ≤ U) (h2 : U ≤ 0x3FF6A0EA00000000) :
    let hu := (U >>> 32 + (0x3ff00000 - 0x3fe6a09e)) % 2 ^ 32
    ((hu >>> 20 : ℕ) : ℤ) - 0x3ff = 1 ∧ ((((hu &&& 0xfffff) + 0x3fe6a09e) % 2 ^ 32) <<< 32) ||| (U &&& 0xffffffff) = U - 2 ^ 52 := by
  dsimp only
  rw [show (0xfffff : ℕ) = 2 ^ 20 - 1 by norm_num, show (0xffffffff : ℕ) = 2 ^ 32 - 1 by norm_num, Nat.and_two_pow_sub_one_eq_mod, Nat.and_two_pow_sub_one_eq_mod,
    Nat.shiftRight_eq_div_pow, Nat.shiftRight_eq_div_pow, ← Nat.shiftLeft_add_eq_or_of_lt (Nat.mod_lt _ (by norm_num)), Nat.shiftLeft_eq]
  constructor <;> omega

/-- the reduction for the arguments in `[0.414213, 0.414284]` -/
theorem l1p_red (md : Mode) {x : ℕ} (h1 : 0x3FDA827A00000000 ≤ x) (h2 : x ≤ 0x3FDA83A109D0635A) :
    ∃ (f c : ℕ) (F D : ℝ), CC.log1pRed md x = (1, f, c) ∧ binary64.Finite f ∧ binary64.val f = F ∧ -(29290 / 100000) ≤ F ∧ F ≤ -(2928 / 10000) ∧
      Ap md c D (1 / 2 ^ 51) (1 / 2 ^ 50) ∧ 1 + binary64.val x = 2 * (1 + F) * (1 + D) := by
  have hu := ru_pos md
  have hu1 := ru_ge md
  have hu2 := ru_le md
  have he := eta_le
  have px := pat64 (P := x) (by omega) (by omega)
  obtain ⟨f1, v1⟩ := fval_one64
  have mx : Mult (-54) (binary64.val x) := by
    rw [px.2, show x / 2 ^ 52 = 1021 by omega]
    exact ⟨((2 ^ 52 + x % 2 ^ 52 : ℕ) : ℤ), by rw [Int.cast_natCast]; norm_num⟩
  have lo : (41421365 / 10 ^ 8 : ℝ) ≤ binary64.val x := by
    have := pat_le h1 (by omega)
    have q := pat64 (P := 0x3FDA827A00000000) (by norm_num) (by norm_num)
    rw [q.2] at this
    norm_num at this ⊢; linarith
  have hi : binary64.val x ≤ 4142842 / 10 ^ 7 := by
    have := pat_le h2 (by norm_num)
    have q := pat64 (P := 0x3FDA83A109D0635A) (by norm_num) (by norm_num)
    rw [q.2] at this
    norm_num at this ⊢; linarith
  unfold CC.log1pRed
  generalize hX : binary64.val x = X at *
  have fx := px.1
  clear px
  -- the sum
  have Ru := binary64.hadd_spec md f1 fx
  rw [v1, hX] at Ru
  obtain ⟨fu, eu⟩ := err64 Ru (by rw [abs_of_pos (by linarith)]; norm_num at *; linarith)
  generalize binary64.hadd md 0x3FF0000000000000 x = u at *
  generalize hU : binary64.val u = U at *
  rw [abs_of_pos (show 0 < 1 + X by linarith)] at eu
  have eu' : |U - (1 + X)| ≤ ru md * (1415 / 1000) := by
    refine eu.trans ?_
    have k := mul_le_mul_of_nonneg_left (show 1 + X ≤ 14143 / 10000 by norm_num at *; linarith) hu.le
    norm_num at *; linarith
  have eu2 : |U - (1 + X)| ≤ 1 / 2 ^ 51 := by
    refine eu'.trans ?_
    norm_num at *; linarith
  have eu3 := abs_le.1 eu2
  have lU : (41421364 / 10 ^ 8 : ℝ) + 1 ≤ U := by norm_num at *; linarith
  have hUi : U ≤ 4142843 / 10 ^ 7 + 1 := by norm_num at *; linarith
  obtain ⟨pu0, pu1⟩ := pos_pat64 fu (by rw [hU]; linarith)
  have pl : 0x3FF6A09E00000000 ≤ u := by
    refine pat_le_of64 (by norm_num) (by omega) ?_
    have q := pat64 (P := 0x3FF6A09E00000000) (by norm_num) (by norm_num)
    rw [q.2, hU]
    norm_num at *; linarith
  have pr : u ≤ 0x3FF6A0EA00000000 := by
    refine pat_le_of64 (by omega) (by norm_num) ?_
    have q := pat64 (P := 0x3FF6A0EA00000000) (by norm_num) (by norm_num)
    rw [q.2, hU]
    norm_num at *; linarith
  have mu : Mult (-52) U := by
    rw [← hU, (pat64 (P := u) (by omega) (by omega)).2, show u / 2 ^ 52 = 1023 by omega]
    exact ⟨((2 ^ 52 + u % 2 ^ 52 : ℕ) : ℤ), by rw [Int.cast_natCast]; norm_num⟩
  obtain ⟨e1, e2⟩ := l1p_hu pl pr
  obtain ⟨fh, vh⟩ := pat_half (U := u) (by omega) pu1
  dsimp only at e1 e2 ⊢
  rw [e1, e2, if_pos (by norm_num), if_neg (by norm_num)]
  clear e1 e2 pu0 pu1 pl pr h1 h2
  generalize hh : u - 2 ^ 52 = h at fh vh ⊢
  clear hh
  rw [hU] at vh
  -- f
  have Rf := binary64.hsub_spec md fh f1
  rw [vh, v1] at Rf
  obtain ⟨ff, vf⟩ := ex64 (-53) Rf (by
    obtain ⟨m, hm⟩ := mu
    refine ⟨m - 2 ^ 53, ?_⟩
    rw [hm]; push_cast; norm_num; ring) (by norm_num) (by rw [abs_le]; constructor <;> norm_num at * <;> linarith) (by rw [abs_le]; constructor <;> norm_num at * <;> linarith)
  -- c
  have R1 := binary64.hsub_spec md fu f1
  rw [hU, v1] at R1
  obtain ⟨g1, w1⟩ := ex64 (-52) R1 (mu.sub ⟨2 ^ 52, by norm_num⟩) (by norm_num) (by rw [abs_le]; constructor <;> norm_num at * <;> linarith) (by rw [abs_le]; constructor <;> norm_num at * <;> linarith)
  have R2 := binary64.hsub_spec md fx g1
  rw [hX, w1] at R2
  have eX : X - (U - 1) = -(U - (1 + X)) := by ring
  obtain ⟨g2, w2⟩ := ex64 (-54) R2 (mx.sub ((mu.sub ⟨2 ^ 52, by norm_num⟩).weaken (by norm_num))) (by norm_num) (by rw [eX, abs_neg]; refine eu2.trans ?_; norm_num)
    (by rw [eX, abs_neg]; refine eu2.trans ?_; norm_num)
  have R3 := binary64.hdiv_spec md g2 fu (by rw [hU]; linarith)
  rw [w2, hU] at R3
  have bD : |(X - (U - 1)) / U| ≤ 1 / 2 ^ 51 := by
    rw [abs_div, abs_of_pos (show 0 < U by linarith), div_le_iff₀ (by linarith), eX, abs_neg]
    refine eu2.trans ?_
    norm_num at *; linarith
  obtain ⟨g3, e3⟩ := err64 R3 (bD.trans (by norm_num))
  refine ⟨_, _, U / 2 - 1, (X - (U - 1)) / U, rfl, ff, vf, by norm_num at *; linarith, by norm_num at *; linarith, ⟨g3, ?_, bD⟩, ?_⟩
  · refine e3.trans ?_
    have k := mul_le_mul_of_nonneg_left bD hu.le
    norm_num at *; linarith
  · have : U ≠ 0 := by linarith
    field_simp
    ring


theorem one_mul64 (md : Mode) : binary64.ofInt md 1 = 0x3FF0000000000000 ∧ binary64.hmul md 0x3FF0000000000000 CC.logLn2lo = CC.logLn2lo ∧
    binary64.hmul md 0x3FF0000000000000 CC.logLn2hi = CC.logLn2hi := by
  cases md <;> decide +kernel

/-- the kernel after the reduction -/
theorem l1p_kernel1 (md : Mode) {f c : ℕ} {F D : ℝ} (hf : binary64.Finite f) (hF : binary64.val f = F) (h1 : -(29290 / 100000) ≤ F) (h2 : F ≤ -(2928 / 10000))
    (Ac : Ap md c D (1 / 2 ^ 51) (1 / 2 ^ 50)) :
    binary64.Finite (CC.log1pKernel md 1 f c) ∧ |binary64.val (CC.log1pKernel md 1 f c) - (log 2 + log (1 + F) + D)| ≤ 14 / 1000000 / 10 ^ 9 := by
  have hu := ru_pos md
  have hu1 := ru_ge md
  have hu2 := ru_le md
  have ha : |F| = -F := abs_of_neg (by linarith)
  have ha0 : (1 : ℝ) / 2 ^ 60 ≤ -F := by norm_num; linarith
  obtain ⟨Aq, Ax⟩ := l1p_core md hf hF ha ha0 h1 (by linarith)
  obtain ⟨-, hs⟩ := l1p_s md hf hF ha ha0 h1 (by linarith)
  have g2 := l1pP_log rfl (show -1 < F by linarith) (hs.trans (by norm_num))
  have Af : Ap md f F (2930 / 10000) 0 := Ap.ofVal hf hF (by rw [ha]; linarith)
  unfold CC.log1pKernel
  dsimp only
  obtain ⟨z1, z2, z3⟩ := one_mul64 md
  rw [z1, z2, z3]
  obtain ⟨flo, vlo⟩ := val_logLn2lo
  obtain ⟨fhi, vhi⟩ := val_logLn2hi
  have l2 := ln2_bounds
  have Alo : Ap md CC.logLn2lo _ (1 / 2 ^ 43) 0 := Ap.ofVal flo vlo (by rw [abs_le]; constructor <;> norm_num)
  have Ahi : Ap md CC.logLn2hi _ (7 / 10) 0 := Ap.ofVal fhi vhi (by rw [abs_le]; constructor <;> norm_num)
  clear vlo vhi z1 z2 z3
  generalize binary64.hmul md (binary64.hdiv md f _) _ = x at *
  generalize binary64.hmul md (binary64.hmul md 0x3FE0000000000000 f) f = q at *
  have hz : F / (2 + F) * (F / (2 + F)) ≤ 2959 / 100000 := by rw [← abs_mul_abs_self]; nlinarith [abs_nonneg (F / (2 + F))]
  have g3 : |F / (2 + F)| ^ 17 ≤ (172 / 1000) ^ 17 := pow_le_pow_left₀ (abs_nonneg _) hs 17
  have g4 : |F / (2 + F)| * (F / (2 + F) * (F / (2 + F))) ≤ 172 / 1000 * (2959 / 100000) := mul_le_mul hs hz (mul_self_nonneg _) (by norm_num)
  generalize F / (2 + F) * (F * F / 2 + l1pP (F / (2 + F) * (F / (2 + F)))) = X at *
  generalize |F / (2 + F)| ^ 17 = s17 at *
  generalize |F / (2 + F)| * (F / (2 + F) * (F / (2 + F))) = sz at *
  have Ax := Ax.mono (B := 2 / 100) (e := 2 / 10) (by linarith) (by linarith)
  have Aq := Aq.mono (B := 7 / 100) (e := 7 / 100) (by linarith) (by linarith)
  generalize log (1 + F) = L at *
  have Al := Alo.add Ac (S := 1 / 2 ^ 42) (B := 1 / 2 ^ 42) (e := 1 / 2 ^ 40) ((abs_add_le' Alo.bd Ac.bd).trans (by norm_num)) le_rfl (by norm_num) (by norm_num)
  have B1 := Ax.add Al (S := 3 / 100) (B := 3 / 100) (e := 24 / 100) ((abs_add_le' Ax.bd Al.bd).trans (by norm_num)) le_rfl (by norm_num) (by norm_num)
  have B2 := B1.sub Aq (S := 1 / 10) (B := 1 / 10) (e := 5 / 10) ((abs_sub _ _).trans ((add_le_add B1.bd Aq.bd).trans (by norm_num))) le_rfl (by norm_num) (by norm_num)
  have B3 := B2.add Af (S := 4 / 10) (B := 4 / 10) (e := 1) ((abs_add_le' B2.bd Af.bd).trans (by norm_num)) le_rfl (by norm_num) (by norm_num)
  have B4 := B3.add Ahi (S := 12 / 10) (B := 12 / 10) (e := 23 / 10) ((abs_add_le' B3.bd Ahi.bd).trans (by norm_num)) le_rfl (by norm_num) (by norm_num)
  refine ⟨B4.1, ?_⟩
  have e := B4.err
  generalize binary64.val (binary64.hadd md _ _) = r at *
  clear B1 B2 B3 B4 Al Ax Aq Af Ahi Alo
  have e' : |r - (X + (544487923021427 / 2 ^ 93 + D) - F * F / 2 + F + 3048493539143 / 2 ^ 42)| ≤ 1 / 10 ^ 15 := by
    refine e.trans ?_
    norm_num at *; linarith
  clear e
  have g5 : |F - F * F / 2 + X - L| ≤ 125 / 10000000 / 10 ^ 9 := by
    refine g2.trans ?_
    norm_num at *; linarith
  clear g2 g3 g4 hu hu1 hu2 Ac
  norm_num at l2
  rw [abs_le] at *
  norm_num at e' g5 ⊢
  constructor <;> linarith [e'.1, e'.2, g5.1, g5.2, l2.1, l2.2]

/-- the arguments in `[0.414213, 0.414284]` -/
theorem l1p_reduced (md : Mode) {x : ℕ} (h1 : 0x3FDA827A00000000 ≤ x) (h2 : x ≤ 0x3FDA83A109D0635A) :
    let r := CC.log1pKernel md (CC.log1pRed md x).1 (CC.log1pRed md x).2.1 (CC.log1pRed md x).2.2
    binary64.Finite r ∧ |binary64.val r - log (1 + binary64.val x)| ≤ 1 / 2 ^ 44 * |log (1 + binary64.val x)| := by
  obtain ⟨f, c, F, D, e, hf, hF, l1, l2, Ac, hx⟩ := l1p_red md h1 h2
  dsimp only
  rw [e]
  dsimp only
  obtain ⟨a, b⟩ := l1p_kernel1 md hf hF l1 l2 Ac
  refine ⟨a, ?_⟩
  have bD := abs_le.1 Ac.bd
  norm_num at bD
  have hL : log (1 + binary64.val x) = log 2 + log (1 + F) + log (1 + D) := by
    rw [hx, log_mul (by nlinarith) (by linarith), log_mul (by norm_num) (by linarith)]
  rw [hL]
  generalize binary64.val (CC.log1pKernel md 1 f c) = r at *
  have d1 := log_le_sub_one_of_pos (show 0 < 1 + D by linarith)
  have d2 := one_sub_inv_le_log_of_pos (show 0 < 1 + D by linarith)
  have d3 : D - 1 / 2 ^ 100 ≤ 1 - (1 + D)⁻¹ := by
    have : 1 - (1 + D)⁻¹ = D - D * D / (1 + D) := by
      have : 1 + D ≠ 0 := by linarith
      field_simp; ring
    rw [this]
    have : D * D / (1 + D) ≤ 1 / 2 ^ 100 := by
      rw [div_le_iff₀ (by linarith)]
      have : D * D ≤ 1 / 2 ^ 51 * (1 / 2 ^ 51) := by
        rw [← abs_mul_abs_self]; exact mul_le_mul Ac.bd Ac.bd (abs_nonneg _) (by norm_num)
      norm_num at this ⊢; linarith
    linarith
  have m := ln2_bounds
  have m2 : -(347 / 1000) ≤ log (1 + F) := by
    have e1 : 2 * log (1 + F) = log ((1 + F) ^ 2) := by rw [log_pow]; norm_num
    have e2 : log (1 / 2 * (9999 / 10000)) ≤ log ((1 + F) ^ 2) := log_le_log (by norm_num) (by nlinarith)
    rw [log_mul (by norm_num) (by norm_num), one_div, log_inv] at e2
    have e3 := one_sub_inv_le_log_of_pos (show (0 : ℝ) < 9999 / 10000 by norm_num)
    norm_num at e3 m
    linarith
  rw [abs_of_pos (show 0 < log 2 + log (1 + F) + log (1 + D) by norm_num at *; linarith)]
  rw [abs_le] at *
  generalize log (1 + D) = LD at *
  generalize log (1 + F) = LF at *
  norm_num at *
  constructor <;> linarith [b.1, b.2]

end Verif
