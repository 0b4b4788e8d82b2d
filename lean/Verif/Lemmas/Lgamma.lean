import Verif.Model.Lgamma
import Verif.Lemmas.Stirling
import Verif.Lemmas.Gamma
import Verif.Lemmas.Ap
import Verif.Lemmas.Asin5
import Verif.Props.Log
import Mathlib.Analysis.Real.Pi.Bounds

/-!
# lgamma: the sum of logarithms and Stirling's formula in floating point
-/

namespace Verif
open Fmt Real

/-- the sum of `positive_lfactorial` -/
theorem lfact_err (md : Mode) : ∀ n : ℕ, n ≤ 168 → binary64.Finite (CC.lfactLoop md n) ∧
    |binary64.val (CC.lfactLoop md n) - log ((n + 1).factorial : ℕ)| ≤ (5 / 4 + 101 / 100 * (n : ℝ)) * ru md * log ((n + 1).factorial : ℕ) := by
  have hu := ru_pos md
  have hu2 := ru_le md
  have hu1 := ru_ge md
  intro n
  induction n with
  | zero =>
    intro _
    have e0 : CC.lfactLoop md 0 = 0 := rfl
    rw [e0]
    refine ⟨by decide +kernel, ?_⟩
    have v0 : binary64.val 0 = 0 := (binary64.val_eq_zero_iff _).2 (by decide +kernel)
    rw [v0]; simp
  | succ n ih =>
    intro hn
    obtain ⟨a, b⟩ := ih (by omega)
    obtain ⟨f2, v2⟩ := ofInt_ex64 md (z := (n : ℤ) + 2) (by rw [abs_of_nonneg (by omega)]; norm_num; omega)
    have hn' : (n : ℝ) ≤ 167 := by exact_mod_cast (show n ≤ 167 by omega)
    have hn0 : (0 : ℝ) ≤ n := Nat.cast_nonneg _
    push_cast at v2
    obtain ⟨fl, el⟩ := C72_log_accuracy md f2 (by rw [v2]; positivity)
    rw [v2, ← ru_eq] at el
    have efac : log ((n + 1 + 1).factorial : ℕ) = log ((n + 1).factorial : ℕ) + log ((n : ℝ) + 2) := by
      rw [Nat.factorial_succ, Nat.cast_mul, log_mul (by positivity) (by positivity), add_comm]
      congr 2; push_cast; ring
    have l2 : 69 / 100 ≤ log ((n : ℝ) + 2) := by
      have m := ln2_bounds
      have := log_le_log (by norm_num) (show (2 : ℝ) ≤ n + 2 by linarith)
      norm_num at m; linarith [m.1]
    have l3 : log ((n : ℝ) + 2) ≤ 170 := by
      have := log_le_sub_one_of_pos (show 0 < (n : ℝ) + 2 by linarith)
      linarith
    have T0 : 0 ≤ log ((n + 1).factorial : ℕ) := log_natCast_nonneg _
    have T1 : log ((n + 1).factorial : ℕ) ≤ 170 * 170 := by
      have h1 : ((n + 1).factorial : ℝ) ≤ (170 : ℝ) ^ 170 := by
        have : (n + 1).factorial ≤ (n + 1) ^ (n + 1) := Nat.factorial_le_pow (n + 1)
        have h2 : (n + 1) ^ (n + 1) ≤ 170 ^ (n + 1) := Nat.pow_le_pow_left (by omega) _
        have h3 : 170 ^ (n + 1) ≤ 170 ^ 170 := Nat.pow_le_pow_right (by norm_num) (by omega)
        exact_mod_cast this.trans (h2.trans h3)
      have := log_le_log (by positivity) h1
      rw [log_pow] at this
      have h4 := log_le_sub_one_of_pos (show (0 : ℝ) < 170 by norm_num)
      push_cast at this
      linarith
    rw [efac]
    change binary64.Finite (binary64.hadd md (CC.lfactLoop md n) (CC.logDouble md (binary64.ofInt md ((n : ℤ) + 2)))) ∧
      |binary64.val (binary64.hadd md (CC.lfactLoop md n) (CC.logDouble md (binary64.ofInt md ((n : ℤ) + 2)))) - _| ≤ _
    have R := binary64.hadd_spec md a fl
    generalize CC.lfactLoop md n = s at *
    generalize CC.logDouble md (binary64.ofInt md ((n : ℤ) + 2)) = l at *
    generalize binary64.val s = S at *
    generalize binary64.val l = L at *
    generalize log ((n + 1).factorial : ℕ) = T at *
    generalize log ((n : ℝ) + 2) = M at *
    rw [abs_of_pos (show 0 < M by linarith)] at el
    have e1 : |S + L - (T + M)| ≤ (5 / 4 + 101 / 100 * (n : ℝ)) * ru md * (T + M) := by
      rw [show S + L - (T + M) = (S - T) + (L - M) by ring]
      refine (abs_add_le _ _).trans ((add_le_add b el).trans ?_)
      have : 1.25 * ru md * M ≤ (5 / 4 + 101 / 100 * (n : ℝ)) * ru md * M := by
        refine mul_le_mul_of_nonneg_right (mul_le_mul_of_nonneg_right ?_ hu.le) (by linarith)
        norm_num
      linarith
    have k1 : (5 / 4 + 101 / 100 * (n : ℝ)) * ru md ≤ 1 / 2 ^ 40 := by
      have := mul_le_mul (show 5 / 4 + 101 / 100 * (n : ℝ) ≤ 200 by linarith) hu2 hu.le (by norm_num)
      refine this.trans (by norm_num)
    have TM : 0 < T + M := by linarith
    have e2 : |S + L| ≤ (T + M) * (1 + 1 / 2 ^ 40) := by
      have := abs_near e1 (le_of_eq (abs_of_pos TM))
      have := mul_le_mul_of_nonneg_right k1 TM.le
      linarith
    obtain ⟨fr, er⟩ := err64 R (e2.trans (by norm_num at *; linarith))
    refine ⟨fr, (abs_tri er e1).trans ?_⟩
    have k2 := mul_le_mul_of_nonneg_left e2 hu.le
    have k3 : eta ≤ ru md * (1 / 2 ^ 40) * (T + M) := by
      have h1 : 1 / 2 ^ 53 * (1 / 2 ^ 40) * (69 / 100) ≤ ru md * (1 / 2 ^ 40) * (T + M) :=
        mul_le_mul (mul_le_mul_of_nonneg_right hu1 (by norm_num)) (by linarith) (by norm_num) (by positivity)
      exact eta_le.trans (le_trans (by norm_num) h1)
    have k4 := mul_nonneg hu.le TM.le
    push_cast
    norm_num at *
    linarith

/-- `log (2π)` in floating point -/
theorem log2pi_ap (md : Mode) :
    Ap md (binary64.hmul md 0x3FE0000000000000 (CC.logDouble md (binary64.hmul md 0x4000000000000000 0x400921FB54442D18))) (log (2 * π) / 2) 1 4 := by
  have hu1 := ru_ge md
  have hu := ru_pos md
  have e : binary64.hmul md 0x4000000000000000 0x400921FB54442D18 = 0x401921FB54442D18 := by cases md <;> decide +kernel
  have f2 : binary64.Finite 0x401921FB54442D18 := by decide +kernel
  have v2 : binary64.val 0x401921FB54442D18 = 2 * (884279719003555 / 2 ^ 48) := by
    rw [lit64 false (2 ^ 52 + 0x921FB54442D18) 50 (by decide +kernel) (by decide +kernel) (by decide +kernel) (by decide +kernel)]
    norm_num [sg]
  rw [e]
  obtain ⟨fl, el⟩ := C72_log_accuracy md f2 (by rw [v2]; norm_num)
  rw [← ru_eq] at el
  generalize CC.logDouble md 0x401921FB54442D18 = l at *
  have p1 := pi_gt_d20
  have p2 := pi_lt_d20
  have n := log_near (c := binary64.val 0x401921FB54442D18) (E := 2 * π) (u := 1 / 2 ^ 54) (by linarith) (by norm_num) (by norm_num)
    (by rw [v2]; norm_num at *; linarith) (by rw [v2]; norm_num at *; linarith)
  have h1 : log (2 * π) ≤ 19 / 10 := by
    have := log_le_log (by linarith) (show 2 * π ≤ 2 ^ 3 * (8 / 10) by norm_num at *; linarith)
    have e3 : log ((2 : ℝ) ^ 3 * (8 / 10)) = 3 * log 2 + log (8 / 10) := by rw [log_mul (by norm_num) (by norm_num), log_pow]; norm_num
    have h2 := log_le_sub_one_of_pos (show (0 : ℝ) < 8 / 10 by norm_num)
    have m := ln2_bounds.2
    rw [e3] at this
    clear v2 el n e
    norm_num at *; linarith
  have h0 : 0 ≤ log (2 * π) := log_nonneg (by linarith)
  have Al : Ap md l (log (2 * π)) (19 / 10) (35 / 10) := by
    refine ⟨fl, ?_, by rw [abs_of_nonneg h0]; exact h1⟩
    generalize binary64.val l = L at *
    generalize log (binary64.val _) = M at *
    generalize log (2 * π) = P at *
    have b := abs_near n (le_of_eq (abs_of_nonneg h0))
    refine (abs_tri el n).trans ?_
    have : 1.25 * ru md * |M| ≤ 1.25 * ru md * 2 := mul_le_mul_of_nonneg_left (by norm_num at *; linarith) (by positivity)
    norm_num at *; linarith
  obtain ⟨fh, vh⟩ := fval_half64
  have R := binary64.hmul_spec md fh fl
  rw [vh] at R
  have hb := Al.val_le
  obtain ⟨fr, er⟩ := err64 R (by rw [abs_mul]; norm_num at *; linarith)
  refine ⟨fr, ?_, by rw [abs_of_nonneg (by linarith)]; linarith⟩
  have a := Al.err
  generalize binary64.val (binary64.hmul md _ l) = r at *
  generalize binary64.val l = L at *
  have a2 : |1 / 2 * L - log (2 * π) / 2| ≤ ru md * (7 / 4) := by
    rw [show 1 / 2 * L - log (2 * π) / 2 = (L - log (2 * π)) / 2 by ring, abs_div, abs_two]
    linarith
  refine (abs_tri er a2).trans ?_
  have : ru md * |1 / 2 * L| ≤ ru md * 1 := mul_le_mul_of_nonneg_left (by rw [abs_mul]; norm_num at *; linarith) hu.le
  have := eta_le
  norm_num at *; linarith

set_option maxHeartbeats 800000 in
/-- the function `stirling` -/
theorem stirling_err (md : Mode) {x : ℕ} (hx : binary64.Finite x) {X : ℝ} (hX : binary64.val x = X) (h1 : 8 ≤ X) (h2 : X ≤ 2 ^ 53) :
    binary64.Finite (CC.stirling md x) ∧ ∃ K : ℝ, 1664 / 10000 ≤ K ∧ K ≤ 1667 / 10000 ∧
      |binary64.val (CC.stirling md x) - ((X - 1 / 2) * log X - X + log (2 * π) / 2 + K / X)| ≤ 7 * ru md * (X * log X) := by
  have hu := ru_pos md
  have hu2 := ru_le md
  have X0 : 0 < X := by linarith
  have l1 : 2 ≤ log X := by
    have := log_le_log (by norm_num) h1
    rw [show (8 : ℝ) = 2 ^ 3 by norm_num, log_pow] at this
    have m := ln2_bounds
    norm_num at *; linarith [m.1]
  have l2 : log X ≤ 38 := by
    have := log_le_log X0 h2
    rw [log_pow] at this
    have m := ln2_bounds
    norm_num at *; linarith [m.2]
  -- the correction
  obtain ⟨f1, v1⟩ := fval_one64
  have Ri := binary64.hdiv_spec md f1 hx (by rw [hX]; exact X0.ne')
  rw [v1, hX] at Ri
  have i8 : 1 / X ≤ 1 / 8 := one_div_le_one_div_of_le (by norm_num) h1
  have i0 : 0 < 1 / X := by positivity
  obtain ⟨fi, ei⟩ := err64 Ri (by rw [abs_of_pos i0]; exact i8.trans (by norm_num))
  have Ai : Ap md (binary64.hdiv md 0x3FF0000000000000 x) (1 / X) (1 / 8) (1 / 7) := by
    refine ⟨fi, ei.trans ?_, by rw [abs_of_pos i0]; exact i8⟩
    rw [abs_of_pos i0]
    have := mul_le_mul_of_nonneg_left i8 hu.le
    have := eta_le
    have := ru_ge md
    norm_num at *; linarith
  have c1 : Ap md 0x3FC5555555555555 (6004799503160661 / 2 ^ 55) (17 / 100) 0 := Ap.ofVal (by decide +kernel) (by
    rw [lit64 false (2 ^ 52 + 0x5555555555555) 55 (by decide +kernel) (by decide +kernel) (by decide +kernel) (by decide +kernel)]
    norm_num [sg]) (by rw [abs_le]; constructor <;> norm_num)
  have c2 : Ap md 0xBF86C16C16C16C17 (-(6405119470038039 / 2 ^ 59)) (12 / 1000) 0 := Ap.ofVal (by decide +kernel) (by
    rw [lit64 true (2 ^ 52 + 0x6C16C16C16C17) 59 (by decide +kernel) (by decide +kernel) (by decide +kernel) (by decide +kernel)]
    norm_num [sg]) (by rw [abs_le]; constructor <;> norm_num)
  have c3 : Ap md 0x3F800A01A01A01A1 (4514601724674465 / 2 ^ 59) (8 / 1000) 0 := Ap.ofVal (by decide +kernel) (by
    rw [lit64 false (2 ^ 52 + 0x00A01A01A01A1) 59 (by decide +kernel) (by decide +kernel) (by decide +kernel) (by decide +kernel)]
    norm_num [sg]) (by rw [abs_le]; constructor <;> norm_num)
  have A2 := Ai.mul Ai (B := 1 / 64) (e := 1 / 10) (by norm_num) (by norm_num) (by norm_num)
  have A3 := A2.mul c3 (B := 1 / 1000) (e := 1 / 100) (by norm_num) (by norm_num) (by norm_num)
  have A4 := c2.add A3 (S := 13 / 1000) (B := 13 / 1000) (e := 1 / 10) ((abs_add_le' c2.bd A3.bd).trans (by norm_num)) le_rfl (by norm_num) (by norm_num)
  have A5 := A2.mul A4 (B := 1 / 1000) (e := 1 / 10) (by norm_num) (by norm_num) (by norm_num)
  have A6 := c1.add A5 (S := 18 / 100) (B := 18 / 100) (e := 4 / 10) ((abs_add_le' c1.bd A5.bd).trans (by norm_num)) le_rfl (by norm_num) (by norm_num)
  have A7 := Ai.mul A6 (B := 1 / 10) (e := 1 / 5) (by norm_num) (by norm_num) (by norm_num)
  clear A2 A3 A4 A5 A6 c1 c2 c3 Ri ei fi
  -- the main part
  have Ax : Ap md x X X 0 := Ap.ofVal hx hX (by rw [abs_of_pos X0])
  obtain ⟨fh, vh⟩ := fval_half64
  have Ah : Ap md 0x3FE0000000000000 (1 / 2) 1 0 := Ap.ofVal fh vh (by norm_num [abs_of_pos])
  have B1 := Ax.sub Ah (S := X) (B := X) (e := X * (1 + 1 / 2 ^ 100)) (by rw [abs_of_pos (by linarith)]; linarith) le_rfl (by norm_num; linarith) (by norm_num at *; linarith)
  obtain ⟨fl, el⟩ := C72_log_accuracy md hx (by rw [hX]; exact X0)
  rw [← ru_eq, hX] at el
  have Al : Ap md (CC.logDouble md x) (log X) (log X) (5 / 4 * log X) := by
    refine ⟨fl, el.trans (le_of_eq ?_), by rw [abs_of_pos (by linarith)]⟩
    rw [abs_of_pos (by linarith)]; ring
  have Y16 : 16 ≤ X * log X := by nlinarith
  have YX : X * 2 ≤ X * log X := mul_le_mul_of_nonneg_left l1 X0.le
  have Yb : X * log X ≤ 2 ^ 60 := by
    have := mul_le_mul h2 l2 (by linarith) (by norm_num)
    exact this.trans (by norm_num)
  have B2 := B1.mul Al (B := X * log X) (e := 326 / 100 * (X * log X)) le_rfl (by
    rw [show X * (1 + 1 / 2 ^ 100) * log X = (1 + 1 / 2 ^ 100) * (X * log X) by ring, show 5 / 4 * log X * X = 5 / 4 * (X * log X) by ring,
      show X * (1 + 1 / 2 ^ 100) * (5 / 4 * log X) = 5 / 4 * (1 + 1 / 2 ^ 100) * (X * log X) by ring]
    norm_num; linarith) (by
    rw [show X * (1 + 1 / 2 ^ 100) * log X = (1 + 1 / 2 ^ 100) * (X * log X) by ring, show 5 / 4 * log X * X = 5 / 4 * (X * log X) by ring,
      show X * (1 + 1 / 2 ^ 100) * (5 / 4 * log X) = 5 / 4 * (1 + 1 / 2 ^ 100) * (X * log X) by ring]
    norm_num at *; linarith)
  have hP0 : X ≤ (X - 1 / 2) * log X := by
    have := mul_le_mul (show X * (1 / 2) ≤ X - 1 / 2 by linarith) l1 (by norm_num) (by linarith)
    linarith
  have hP1 : (X - 1 / 2) * log X ≤ X * log X := mul_le_mul_of_nonneg_right (by linarith) (by linarith)
  have B3 := B2.sub Ax (S := X * log X) (B := X * log X) (e := 427 / 100 * (X * log X)) (by rw [abs_of_nonneg (by linarith)]; linarith) le_rfl
    (by norm_num; linarith) (by norm_num at *; linarith)
  have Ac := log2pi_ap md
  have hc0 : 0 ≤ log (2 * π) := log_nonneg (by linarith [pi_gt_three])
  have hc1 := Ac.bd
  rw [abs_of_nonneg (by linarith)] at hc1
  have B4 := B3.add Ac (S := X * log X) (B := X * log X) (e := 56 / 10 * (X * log X)) (by rw [abs_of_nonneg (by linarith)]; linarith) le_rfl
    (by norm_num; linarith) (by norm_num at *; linarith)
  have hk := A7.bd
  have B5 := B4.add A7 (S := X * log X) (B := X * log X) (e := 7 * (X * log X)) (by
      refine (abs_add_le' (by rw [abs_of_nonneg (show 0 ≤ (X - 1 / 2) * log X - X + log (2 * π) / 2 by linarith)]) hk).trans ?_
      linarith) le_rfl
    (by norm_num; linarith) (by norm_num at *; linarith)
  refine ⟨B5.1, 6004799503160661 / 2 ^ 55 + 1 / X * (1 / X) * (-(6405119470038039 / 2 ^ 59) + 1 / X * (1 / X) * (4514601724674465 / 2 ^ 59)), ?_, ?_, ?_⟩
  · have q0 : 0 ≤ 1 / X * (1 / X) := by positivity
    have q1 : 1 / X * (1 / X) ≤ 1 / 64 := (mul_le_mul i8 i8 i0.le (by norm_num)).trans (by norm_num)
    have q2 := mul_nonneg q0 q0
    norm_num at *; nlinarith
  · have q0 : 0 ≤ 1 / X * (1 / X) := by positivity
    have q1 : 1 / X * (1 / X) ≤ 1 / 64 := (mul_le_mul i8 i8 i0.le (by norm_num)).trans (by norm_num)
    have q2 : 1 / X * (1 / X) * (-(6405119470038039 / 2 ^ 59) + 1 / X * (1 / X) * (4514601724674465 / 2 ^ 59)) ≤ 0 :=
      mul_nonpos_of_nonneg_of_nonpos q0 (by norm_num at *; linarith)
    norm_num at *; linarith
  · have := B5.err
    unfold CC.stirling
    dsimp only
    rw [show ∀ K : ℝ, K / X = 1 / X * K by intro K; ring]
    refine this.trans (le_of_eq (by ring))

end Verif
