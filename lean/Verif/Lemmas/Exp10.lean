import Verif.Lemmas.Exp9

/-!
# `exp` for doubles: large arguments, and the whole function
-/

namespace Verif
open Fmt Real

theorem pos_aux1 {X u E A R : ℝ} (hA : A = exp X * 2 ^ (-1009 : ℤ)) (hX : X ≤ 6243314768165359 / 2 ^ 43) (hu2 : u ≤ 1 / 2 ^ 52) (hE0 : 0 ≤ E) (hE : E ≤ 3 / 10)
    (h : |R - A| ≤ u * (A * (1 + E + 6 / 10 ^ 5))) : R < 2 ^ 15 := by
  obtain ⟨c1, c2⟩ := expMax_log
  have h1 : exp X ≤ 2 ^ (1024 : ℤ) * (1 - 9 / 10 ^ 15) := by
    have : X ≤ (1024 : ℤ) * log 2 + (-(1 / 10 ^ 14)) := by push_cast; linarith
    refine le_trans (Real.exp_le_exp.2 this) ?_
    rw [Real.exp_add, exp_int_log]
    refine mul_le_mul_of_nonneg_left ?_ (two_zpow_pos _).le
    have := Real.abs_exp_sub_one_sub_id_le (x := -(1 / 10 ^ 14)) (by norm_num)
    have := (abs_le.1 this).2
    norm_num at this ⊢
    linarith
  have h2 : A ≤ 2 ^ 15 * (1 - 9 / 10 ^ 15) := by
    rw [hA]
    refine le_trans (mul_le_mul_of_nonneg_right h1 (two_zpow_pos _).le) (le_of_eq ?_)
    have : (2 : ℝ) ^ (1024 : ℤ) * 2 ^ (-1009 : ℤ) = 2 ^ 15 := by rw [← zpow_add₀ (by norm_num)]; norm_num
    rw [mul_right_comm, this]
  have hA0 : 0 < A := by rw [hA]; exact mul_pos (Real.exp_pos _) (two_zpow_pos _)
  have h3 : u * (A * (1 + E + 6 / 10 ^ 5)) ≤ 1 / 2 ^ 52 * (A * 2) := mul_le_mul hu2 (mul_le_mul_of_nonneg_left (by linarith) hA0.le) (by positivity) (by positivity)
  have h4 := (abs_le.1 h).2
  have h5 : R ≤ A * (1 + 2 / 2 ^ 52) := by linarith
  have h6 := mul_le_mul_of_nonneg_right h2 (show (0 : ℝ) ≤ 1 + 2 / 2 ^ 52 by positivity)
  have : (2 : ℝ) ^ 15 * (1 - 9 / 10 ^ 15) * (1 + 2 / 2 ^ 52) < 2 ^ 15 := by norm_num
  linarith

theorem pos_aux2 {X u E A R : ℝ} (hA : A = exp X * 2 ^ (-1009 : ℤ)) (hX : 6243314768165360 / 2 ^ 43 ≤ X) (hu2 : u ≤ 1 / 2 ^ 52) (hE0 : 0 ≤ E)
    (hE : E ≤ 3 / 10 ∨ (1000 < X ∧ E ≤ 1200)) (h : |R - A| ≤ u * (A * (1 + E + 6 / 10 ^ 5))) : 2 ^ 15 ≤ R := by
  obtain ⟨c1, c2⟩ := expMax_log
  have hA0 : 0 < A := by rw [hA]; exact mul_pos (Real.exp_pos _) (two_zpow_pos _)
  have hp : (2 : ℝ) ^ (1024 : ℤ) * 2 ^ (-1009 : ℤ) = 2 ^ 15 := by rw [← zpow_add₀ (by norm_num)]; norm_num
  have h4 := (abs_le.1 h).1
  rcases hE with hE | ⟨hX2, hE⟩
  · have h1 : 2 ^ (1024 : ℤ) * (1 + 4 / 10 ^ 14) ≤ exp X := by
      have : (1024 : ℤ) * log 2 + 5 / 10 ^ 14 ≤ X := by push_cast; linarith
      refine le_trans ?_ (Real.exp_le_exp.2 this)
      rw [Real.exp_add, exp_int_log]
      refine mul_le_mul_of_nonneg_left ?_ (two_zpow_pos _).le
      have := Real.add_one_le_exp (5 / 10 ^ 14 : ℝ)
      norm_num at this ⊢
      linarith
    have h2 : 2 ^ 15 * (1 + 4 / 10 ^ 14) ≤ A := by
      rw [hA]
      refine le_trans (le_of_eq ?_) (mul_le_mul_of_nonneg_right h1 (two_zpow_pos _).le)
      rw [mul_right_comm, hp]
    have h3 : u * (A * (1 + E + 6 / 10 ^ 5)) ≤ 1 / 2 ^ 52 * (A * 2) := mul_le_mul hu2 (mul_le_mul_of_nonneg_left (by linarith) hA0.le) (by positivity) (by positivity)
    have h5 : A * (1 - 2 / 2 ^ 52) ≤ R := by linarith
    have h6 := mul_le_mul_of_nonneg_right h2 (show (0 : ℝ) ≤ 1 - 2 / 2 ^ 52 by norm_num)
    have : (2 : ℝ) ^ 15 ≤ 2 ^ 15 * (1 + 4 / 10 ^ 14) * (1 - 2 / 2 ^ 52) := by norm_num
    linarith
  · have h1 : (2 : ℝ) ^ (1025 : ℤ) ≤ exp X := zpow_le_exp 1025 (by have := log2_bd.2; push_cast; linarith)
    have h2 : 2 ^ 16 ≤ A := by
      rw [hA]
      have hp2 : (2 : ℝ) ^ (1025 : ℤ) * 2 ^ (-1009 : ℤ) = 2 ^ 16 := by rw [← zpow_add₀ (by norm_num)]; norm_num
      rw [← hp2]
      exact mul_le_mul_of_nonneg_right h1 (two_zpow_pos _).le
    have h3 : u * (A * (1 + E + 6 / 10 ^ 5)) ≤ 1 / 2 ^ 52 * (A * 1300) := mul_le_mul hu2 (mul_le_mul_of_nonneg_left (by linarith) hA0.le) (by positivity) (by positivity)
    have h5 : A * (1 / 2) ≤ R := by
      have : (1 : ℝ) / 2 ^ 52 * 1300 ≤ 1 / 2 := by norm_num
      have := mul_le_mul_of_nonneg_left this hA0.le
      linarith
    have : (2 : ℝ) ^ 16 * (1 / 2) = 2 ^ 15 := by norm_num
    linarith

theorem expE_cases (md : Mode) {X : ℝ} (h : 512 ≤ X) : expE md X ≤ 3 / 10 ∨ (1000 < X ∧ expE md X ≤ 1200) := by
  rcases le_or_gt X 1000 with hc | hc
  · left
    have := expE_le' md (X := X) (abs_le.2 ⟨by linarith, hc⟩)
    refine le_trans this ?_
    split_ifs <;> norm_num
  · exact Or.inr ⟨hc, expE_le md X⟩

/-- doubles above the bound are at least the next double -/
theorem expMax_next {x : ℕ} (hx : binary64.Finite x) (h : binary64.val 0x40862E42FEFA39EF < binary64.val x) : 6243314768165360 / 2 ^ 43 ≤ binary64.val x := by
  rw [val_expMax] at h
  have h1 : Mult (-43) (binary64.val x) := (binary64.mult_ce x).weaken (binary64.le_ce_of (by
    have : (-43 : ℤ) + (binary64.F : ℤ) = 9 := by decide
    rw [this, abs_of_pos (by norm_num at h ⊢; linarith)]
    norm_num at h ⊢; linarith))
  obtain ⟨a, ha⟩ := h1
  have e : (2 : ℝ) ^ (-43 : ℤ) = 1 / 2 ^ 43 := by rw [zpow_neg, one_div]; norm_cast
  rw [ha, e] at h ⊢
  have hp : (0 : ℝ) < 1 / 2 ^ 43 := by positivity
  have h2 : (6243314768165359 : ℝ) < a := by
    by_contra hc
    push Not at hc
    have := mul_le_mul_of_nonneg_right hc hp.le
    linarith
  have h3 : (6243314768165360 : ℝ) ≤ a := by
    have : (6243314768165359 : ℤ) < a := by exact_mod_cast h2
    exact_mod_cast (show (6243314768165360 : ℤ) ≤ a by omega)
  have := mul_le_mul_of_nonneg_right h3 hp.le
  linarith

/-- arguments above 512: `handle_special_case` with a positive exponent -/
theorem exp_special_pos (md : Mode) {x : ℕ} (hx : binary64.Finite x) (hb : |binary64.val x| ≤ 1024) (h : 512 ≤ binary64.val x) :
    ∃ tmp sb ki, CC.expParts md x = (tmp, sb, ki) ∧
      (binary64.val x ≤ binary64.val 0x40862E42FEFA39EF →
        binary64.Finite (CC.expSpecial 1009 0x7F00000000000000 md tmp sb ki) ∧ 0 ≤ binary64.val (CC.expSpecial 1009 0x7F00000000000000 md tmp sb ki) ∧
        |binary64.val (CC.expSpecial 1009 0x7F00000000000000 md tmp sb ki) - exp (binary64.val x)| ≤
          ru md * (expK md * exp (binary64.val x) + expS md * 2 ^ (-1022 : ℤ))) ∧
      (binary64.val 0x40862E42FEFA39EF < binary64.val x → CC.expSpecial 1009 0x7F00000000000000 md tmp sb ki = binary64.ovf md false) := by
  obtain ⟨k, ki, tmp, p1, p2, p3, p4, p5⟩ := exp_core md hx hb
  have hk := (k_bounds p4).1 h
  refine ⟨tmp, sBits ki, ki, p1, ?_⟩
  have hsb := sBits_mod (ki := ki) (k := k) 0 (by norm_num) (by simpa using p2)
  have hk2 := (abs_le.1 p3).2
  have hn : ((((sBits ki + 2 ^ 64 - 1009 * 2 ^ 52) % 2 ^ 64 : ℕ)) : ℤ) = ((1022 + k / 128 + (-1009)) * 2 ^ 52 + tabH (kIdx k)) % 2 ^ 64 := by
    have : ((sBits ki + 2 ^ 64 - 1009 * 2 ^ 52 : ℕ) : ℤ) = (sBits ki : ℤ) + 2 ^ 64 - 1009 * 2 ^ 52 := by omega
    omega
  obtain ⟨q1, q2, q3, q4, q5, q6, q7, q8, q9, q10, q11⟩ := p5 _ (-1009) hn (by omega) (Or.inl (by omega))
  unfold CC.expSpecial
  rw [if_pos (by rw [ki_sign 0 (by norm_num) (by simpa using p2) p3]; omega)]
  simp only []
  generalize (sBits ki + 2 ^ 64 - 1009 * 2 ^ 52) % 2 ^ 64 = n at *
  clear p5 q5 q6 q7 q8 q9 q10 hn hsb
  have hu := ru_pos md
  have hu2 := ru_le md
  have hE0 := expE_nonneg md (binary64.val x)
  obtain ⟨fm, vm⟩ := val_p1009
  generalize binary64.hadd md n (binary64.hmul md n tmp) = R at *
  have hp9 := two_zpow_pos 1009
  have hA0 : 0 < exp (binary64.val x) * 2 ^ (-1009 : ℤ) := mul_pos (Real.exp_pos _) (two_zpow_pos _)
  have hS := binary64.hmul_spec md fm q3
  rw [vm] at hS
  have h24 : (2 : ℝ) ^ ((binary64.bias : ℤ) + 1) = 2 ^ 15 * 2 ^ (1009 : ℤ) := by
    have : (binary64.bias : ℤ) + 1 = 15 + 1009 := rfl
    rw [this, zpow_add₀ (by norm_num)]; norm_num
  have hR0 : 0 < binary64.val R := by
    have h3 : ru md * (exp (binary64.val x) * 2 ^ (-1009 : ℤ) * (1 + expE md (binary64.val x) + 6 / 10 ^ 5)) ≤ 1 / 2 ^ 52 * (exp (binary64.val x) * 2 ^ (-1009 : ℤ) * 1300) :=
      mul_le_mul hu2 (mul_le_mul_of_nonneg_left (by have := expE_le md (binary64.val x); linarith) hA0.le) (by positivity) (by positivity)
    generalize exp (binary64.val x) * 2 ^ (-1009 : ℤ) = A at *
    have h4 : (1 : ℝ) / 2 ^ 52 * (A * 1300) ≤ A * (1 / 10 ^ 5) := by
      have : (1 : ℝ) / 2 ^ 52 * 1300 ≤ 1 / 10 ^ 5 := by norm_num
      have := mul_le_mul_of_nonneg_left this hA0.le
      linarith
    have := (abs_le.1 q11).1
    linarith
  constructor
  · intro hX
    rw [val_expMax] at hX
    have hX2 : |binary64.val x| ≤ 1000 := by
      rw [abs_of_pos (by linarith)]
      refine le_trans hX (by norm_num)
    have hE : expE md (binary64.val x) ≤ 3 / 10 := by
      rcases expE_cases md h with hE | hE
      · exact hE
      · exfalso; rw [abs_of_pos (by linarith)] at hX2; linarith [hE.1]
    have hR := pos_aux1 rfl hX hu2 hE0 hE q11
    obtain ⟨b, b1, b2, -⟩ := binary64.scale_exact (x := R) (k := 1009) (Or.inl (by norm_num)) (by
      rw [abs_of_pos (mul_pos hR0 hp9), h24]
      exact mul_lt_mul_of_pos_right hR hp9)
    obtain ⟨fr, er⟩ := RoundsTo.exact binary64 b1 (by rw [b2]; ring) hS
    refine ⟨fr, by rw [er]; exact (mul_pos hp9 hR0).le, ?_⟩
    rw [er]
    have hK : 1 + expE md (binary64.val x) + 6 / 10 ^ 5 ≤ expK md := by have := expK_ge md hX2; linarith
    have hAx : exp (binary64.val x) * 2 ^ (-1009 : ℤ) * 2 ^ (1009 : ℤ) = exp (binary64.val x) := by
      rw [mul_assoc, ← zpow_add₀ (by norm_num)]; norm_num
    have hS0 : 0 ≤ ru md * (expS md * 2 ^ (-1022 : ℤ)) := mul_nonneg hu.le (mul_nonneg (by have := expS_ge md; linarith) (two_zpow_pos _).le)
    generalize exp (binary64.val x) = ex at *
    generalize ex * 2 ^ (-1009 : ℤ) = A at *
    have e1 : (2 : ℝ) ^ (1009 : ℤ) * binary64.val R - ex = 2 ^ (1009 : ℤ) * (binary64.val R - A) := by rw [← hAx]; ring
    rw [e1, abs_mul, abs_of_pos hp9]
    refine le_trans (mul_le_mul_of_nonneg_left (le_trans q11 (mul_le_mul_of_nonneg_left (mul_le_mul_of_nonneg_left hK hA0.le) hu.le)) hp9.le) ?_
    have e2 : (2 : ℝ) ^ (1009 : ℤ) * (ru md * (A * expK md)) = ru md * (expK md * ex) := by rw [← hAx]; ring
    rw [e2, mul_add]
    linarith
  · intro hX
    have hR := pos_aux2 rfl (expMax_next hx hX) hu2 hE0 (expE_cases md h) q11
    have := RoundsTo.huge binary64 hS (by
      rw [abs_of_pos (mul_pos hp9 hR0), h24, mul_comm]
      exact mul_le_mul_of_nonneg_left hR hp9.le)
    rw [this, decide_eq_false (not_lt.2 (mul_pos hp9 hR0).le)]

/-- arguments of moderate size -/
theorem exp_normal (md : Mode) {x : ℕ} (hx : binary64.Finite x) (h : |binary64.val x| < 512) :
    ∃ tmp sb ki, CC.expParts md x = (tmp, sb, ki) ∧
      binary64.Finite (binary64.hadd md sb (binary64.hmul md sb tmp)) ∧ 0 ≤ binary64.val (binary64.hadd md sb (binary64.hmul md sb tmp)) ∧
      |binary64.val (binary64.hadd md sb (binary64.hmul md sb tmp)) - exp (binary64.val x)| ≤ ru md * (expK md * exp (binary64.val x)) := by
  obtain ⟨k, ki, tmp, p1, p2, p3, p4, p5⟩ := exp_core md hx (by linarith)
  have hk := abs_le.1 ((k_bounds p4).2.2 h)
  refine ⟨tmp, sBits ki, ki, p1, ?_⟩
  have hsb := sBits_mod (ki := ki) (k := k) 0 (by norm_num) (by simpa using p2)
  obtain ⟨q1, q2, q3, q4, q5, q6, q7, q8, q9, q10, q11⟩ := p5 (sBits ki) 0 (by rw [add_zero]; exact hsb) (by omega) (Or.inl (by omega))
  clear p5 q5 q6 q7 q8 q9 q10 hsb
  rw [zpow_zero, mul_one] at q11
  have hu := ru_pos md
  have hu2 := ru_le md
  have hK : 1 + expE md (binary64.val x) + 6 / 10 ^ 5 ≤ expK md := by have := expK_ge md (X := binary64.val x) (by linarith); linarith
  have hA0 := Real.exp_pos (binary64.val x)
  have h1 := le_trans q11 (mul_le_mul_of_nonneg_left (mul_le_mul_of_nonneg_left hK hA0.le) hu.le)
  rw [mul_comm (exp _) (expK md)] at h1
  refine ⟨q3, ?_, h1⟩
  have hK2 := expK_le md
  have h2 : ru md * (expK md * exp (binary64.val x)) ≤ 1 / 2 ^ 52 * (13 / 10 * exp (binary64.val x)) :=
    mul_le_mul hu2 (mul_le_mul_of_nonneg_right hK2 hA0.le) (mul_nonneg (by have := expK_ge1 md; linarith) hA0.le) (by positivity)
  have h3 : (1 : ℝ) / 2 ^ 52 * (13 / 10 * exp (binary64.val x)) ≤ exp (binary64.val x) := by
    have : (1 : ℝ) / 2 ^ 52 * (13 / 10) ≤ 1 := by norm_num
    have := mul_le_mul_of_nonneg_right this hA0.le
    linarith
  have := (abs_le.1 h1).1
  linarith

end Verif
