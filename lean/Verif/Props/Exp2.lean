import Verif.Lemmas.Exp11
import Verif.Props.Expm1

/-!
# Properties of the double `exp2` (C64)

`ru md` is `2^-53` in round-to-nearest and `2^-52` in the other modes; `eta` is the least subnormal.
-/

namespace Verif
open Fmt Real

theorem mag_lt_iff {x y : ℕ} (hy : binary64.mag y = y) (hy2 : 0 ≤ binary64.val y) : y < binary64.mag x ↔ binary64.val y < |binary64.val x| := by
  rw [← abs_of_nonneg hy2, binary64.abs_val, binary64.abs_val, hy, mul_lt_mul_iff_left₀ binary64.minSub_pos, Nat.cast_lt, umag_lt_iff]
theorem mag_le_iff {x y : ℕ} (hy : binary64.mag y = y) (hy2 : 0 ≤ binary64.val y) : y ≤ binary64.mag x ↔ binary64.val y ≤ |binary64.val x| := by
  rw [← abs_of_nonneg hy2, binary64.abs_val, binary64.abs_val, hy, mul_le_mul_iff_left₀ binary64.minSub_pos, Nat.cast_le, umag_le_iff]

theorem val_928 : binary64.val 0x408D000000000000 = 928 := by
  rw [lit64 false 0x1D000000000000 43 (by decide +kernel) (by decide +kernel) (by decide +kernel) (by decide +kernel)]; norm_num [sg]
theorem val_1075 : binary64.val 0x4090CC0000000000 = 1075 := by
  rw [lit64 false 0x10CC0000000000 42 (by decide +kernel) (by decide +kernel) (by decide +kernel) (by decide +kernel)]; norm_num [sg]

theorem exp2_tiny_aux {X : ℝ} (h : |X| ≤ 1 / 2 ^ 54) : |exp (X * log 2) - (1 + X)| ≤ 32 / 100 * (1 / 2 ^ 54) := by
  obtain ⟨l1, l2⟩ := log2_bd
  have hx := abs_le.1 h
  have h1 : |X * log 2| ≤ 1 / 2 ^ 54 := by
    refine le_trans (abs_mul_le h (show |log 2| ≤ 1 by rw [abs_of_pos (by linarith)]; linarith)) (by norm_num)
  have h2 := Real.abs_exp_sub_one_sub_id_le (x := X * log 2) (le_trans h1 (by norm_num))
  have h3 : (X * log 2) ^ 2 ≤ (1 / 2 ^ 54) ^ 2 := by rw [← sq_abs]; exact pow_le_pow_left₀ (abs_nonneg _) h1 2
  have e : exp (X * log 2) - (1 + X) = (exp (X * log 2) - 1 - X * log 2) + X * (log 2 - 1) := by ring
  rw [e]
  refine le_trans (abs_add_le' (le_trans h2 h3) (abs_mul_le h (show |log 2 - 1| ≤ 3069 / 10 ^ 4 by rw [abs_le]; constructor <;> linarith))) ?_
  norm_num

theorem exp2_tiny (md : Mode) {x : ℕ} (hx : binary64.Finite x) (h : |binary64.val x| < 1 / 2 ^ 54) :
    binary64.Finite (binary64.hadd md x 0x3FF0000000000000) ∧ 0 ≤ binary64.val (binary64.hadd md x 0x3FF0000000000000) ∧
      |binary64.val (binary64.hadd md x 0x3FF0000000000000) - exp (binary64.val x * log 2)| ≤ ru md * (exp2K md * exp (binary64.val x * log 2)) := by
  have f1 : binary64.Finite 0x3FF0000000000000 := by decide +kernel
  have R := binary64.hadd_spec md hx f1
  rw [val_one64] at R
  have c : (1 : ℝ) / 2 ^ 54 ≤ 1 / 1000 := by norm_num
  have h2 := abs_lt.1 h
  have hv : |binary64.val x + 1| = binary64.val x + 1 := abs_of_pos (by linarith)
  obtain ⟨fr, er⟩ := err64 R (by rw [hv]; have : (2 : ℝ) ≤ 2 ^ 200 := by norm_num
                                 linarith)
  rw [hv] at er
  have hu := ru_pos md
  have hu2 := ru_le md
  have hu3 := ru_ge md
  have hη := eta_le
  have h5 := exp2_tiny_aux h.le
  have c0 : (32 : ℝ) / 100 * (1 / 2 ^ 54) ≤ 1 / 1000 := by norm_num
  have h6 := (abs_le.1 h5).1
  have c4 : (1 : ℝ) / 2 ^ 52 ≤ 1 / 1000 := by norm_num
  have h10 : ru md * (binary64.val x + 1) ≤ 1 / 2 ^ 52 * 2 := mul_le_mul hu2 (by linarith) (by linarith) (by positivity)
  have c5 : (1 : ℝ) / 2 ^ 200 ≤ 1 / 1000 := by norm_num
  refine ⟨fr, by have := (abs_le.1 er).1; linarith, ?_⟩
  by_cases hm : md = .nearest
  · subst hm
    have h7 := IsNearest.le (RoundsTo.isNearest R fr) f1
    rw [val_one64, show (1 : ℝ) - (binary64.val x + 1) = -binary64.val x by ring, abs_neg] at h7
    have h8 : |binary64.val (binary64.hadd .nearest x 0x3FF0000000000000) - exp (binary64.val x * log 2)| ≤ |binary64.val x| + 32 / 100 * (1 / 2 ^ 54) :=
      abs_tri h7 (by rw [abs_sub_comm, add_comm (binary64.val x) 1]; exact h5)
    have h9 : 1 / 2 ^ 53 * (1 * (99 / 100)) ≤ ru .nearest * (exp2K .nearest * exp (binary64.val x * log 2)) :=
      mul_le_mul hu3 (mul_le_mul (by have := exp2K_ge1 .nearest; linarith) (by linarith) (by norm_num) (by have := exp2K_ge1 .nearest; linarith)) (by norm_num) hu.le
    have c6 : (1 : ℝ) / 2 ^ 54 + 32 / 100 * (1 / 2 ^ 54) ≤ 1 / 2 ^ 53 * (1 * (99 / 100)) := by norm_num
    linarith
  · have hK : exp2K md = 132 / 100 := by unfold exp2K; rw [if_neg hm]
    have hr : ru md = 1 / 2 ^ 52 := by unfold ru; rw [if_neg hm]
    have h7 : |binary64.val (binary64.hadd md x 0x3FF0000000000000) - exp (binary64.val x * log 2)| ≤ ru md * (binary64.val x + 1) + eta + 32 / 100 * (1 / 2 ^ 54) :=
      abs_tri er (by rw [abs_sub_comm, add_comm (binary64.val x) 1]; exact h5)
    rw [hK, hr] at *
    have h8 : (1 : ℝ) / 2 ^ 52 * (132 / 100 * (99 / 100)) ≤ 1 / 2 ^ 52 * (132 / 100 * exp (binary64.val x * log 2)) :=
      mul_le_mul_of_nonneg_left (mul_le_mul_of_nonneg_left (by linarith) (by norm_num)) (by norm_num)
    have h9 : (1 : ℝ) / 2 ^ 52 * (binary64.val x + 1) ≤ 1 / 2 ^ 52 * (1001 / 1000) := mul_le_mul_of_nonneg_left (by linarith) (by norm_num)
    have c6 : (1 : ℝ) / 2 ^ 52 * (1001 / 1000) + 1 / 2 ^ 200 + 32 / 100 * (1 / 2 ^ 54) ≤ 1 / 2 ^ 52 * (132 / 100 * (99 / 100)) := by norm_num
    linarith

/-- moderate arguments -/
theorem exp2_normal (md : Mode) {x : ℕ} (hx : binary64.Finite x) (h : |binary64.val x| ≤ 928) :
    ∃ tmp sb ki, CC.exp2Parts md x = (tmp, sb, ki) ∧
      binary64.Finite (binary64.hadd md sb (binary64.hmul md sb tmp)) ∧ 0 ≤ binary64.val (binary64.hadd md sb (binary64.hmul md sb tmp)) ∧
      |binary64.val (binary64.hadd md sb (binary64.hmul md sb tmp)) - exp (binary64.val x * log 2)| ≤ ru md * (exp2K md * exp (binary64.val x * log 2)) := by
  obtain ⟨k, ki, tmp, p1, p2, p3, p4, p5⟩ := exp2_core md hx (by linarith)
  have hk : |(k : ℝ)| ≤ 118785 := by
    rw [abs_sub_comm] at p4
    have h1 := abs_near p4 h
    rw [abs_mul, abs_of_pos (show (0 : ℝ) < 1 / 128 by norm_num)] at h1
    linarith
  have hk' := abs_le.1 (show |k| ≤ 118785 by exact_mod_cast hk)
  refine ⟨tmp, sBits ki, ki, p1, ?_⟩
  have hsb := sBits_mod (ki := ki) (k := k) 7 (by norm_num) p2
  have h' := abs_le.1 h
  have l1 := log2_bd.1
  obtain ⟨q1, q2, q3, q4, q5, q6, q7, q8, q9, q10, q11⟩ := p5 (sBits ki) 0 (by rw [add_zero]; exact hsb) (by omega) (Or.inr ⟨by omega, by
    rw [zpow_zero, mul_one]
    exact exp_le_zpow 1023 (mul_le_mul_of_nonneg_right (by push_cast; linarith) (by linarith))⟩)
  clear p5 q5 q6 q7 q8 q9 q10 hsb
  rw [zpow_zero, mul_one] at q11
  have hu := ru_pos md
  have hu2 := ru_le md
  have hK : 1 + exp2E md + 6 / 10 ^ 5 ≤ exp2K md := by have := exp2K_ge md; linarith
  have hA0 := Real.exp_pos (binary64.val x * log 2)
  have h1 := le_trans q11 (mul_le_mul_of_nonneg_left (mul_le_mul_of_nonneg_left hK hA0.le) hu.le)
  rw [mul_comm (exp _) (exp2K md)] at h1
  refine ⟨q3, ?_, h1⟩
  have hK2 := exp2K_le md
  have h2 : ru md * (exp2K md * exp (binary64.val x * log 2)) ≤ 1 / 2 ^ 52 * (132 / 100 * exp (binary64.val x * log 2)) :=
    mul_le_mul hu2 (mul_le_mul_of_nonneg_right hK2 hA0.le) (mul_nonneg (by have := exp2K_ge1 md; linarith) hA0.le) (by positivity)
  have h3 : (1 : ℝ) / 2 ^ 52 * (132 / 100 * exp (binary64.val x * log 2)) ≤ exp (binary64.val x * log 2) := by
    have : (1 : ℝ) / 2 ^ 52 * (132 / 100) ≤ 1 := by norm_num
    have := mul_le_mul_of_nonneg_right this hA0.le
    linarith
  have := (abs_le.1 h1).1
  linarith

theorem exp2_special_neg (md : Mode) {x : ℕ} (hx : binary64.Finite x) (hb : -1100 ≤ binary64.val x) (h : binary64.val x ≤ -928) :
    ∃ tmp sb ki, CC.exp2Parts md x = (tmp, sb, ki) ∧
      binary64.Finite (CC.expSpecial 1 0x4000000000000000 md tmp sb ki) ∧ 0 ≤ binary64.val (CC.expSpecial 1 0x4000000000000000 md tmp sb ki) ∧
      |binary64.val (CC.expSpecial 1 0x4000000000000000 md tmp sb ki) - exp (binary64.val x * log 2)| ≤
        ru md * (exp2K md * exp (binary64.val x * log 2) + expS md * 2 ^ (-1022 : ℤ)) := by
  obtain ⟨k, ki, tmp, p1, p2, p3, p4, p5⟩ := exp2_core md hx (by rw [abs_le]; constructor <;> linarith)
  refine ⟨tmp, sBits ki, ki, p1, ?_⟩
  have hk : (k : ℝ) ≤ -94000 := by have := (abs_le.1 p4).1; linarith
  exact special_neg_gen md 7 (by norm_num) p2 (by omega) (by exact_mod_cast hk) p5 (exp2E_nonneg md) (by have := exp2E_le md; linarith) (exp2K_ge1 md) (Or.inl (exp2K_ge md))

/-- a double below 1024 is at least `2^-43` below -/
theorem below_1024 {x : ℕ} (h0 : 928 ≤ binary64.val x) (h : binary64.val x < 1024) : binary64.val x ≤ 1024 - 1 / 2 ^ 43 := by
  have h1 : Mult (-43) (binary64.val x) := (binary64.mult_ce x).weaken (binary64.le_ce_of (by
    have : (-43 : ℤ) + (binary64.F : ℤ) = 9 := by decide
    rw [this, abs_of_pos (by linarith)]
    norm_num; linarith))
  obtain ⟨a, ha⟩ := h1
  have e : (2 : ℝ) ^ (-43 : ℤ) = 1 / 2 ^ 43 := by rw [zpow_neg, one_div]; norm_cast
  rw [ha, e] at h ⊢
  have h2 : (a : ℝ) < 2 ^ 53 := by
    have : (a : ℝ) * (1 / 2 ^ 43) * 2 ^ 43 < 1024 * 2 ^ 43 := mul_lt_mul_of_pos_right h (by positivity)
    have e1 : (a : ℝ) * (1 / 2 ^ 43) * 2 ^ 43 = a := by field_simp
    have e2 : (1024 : ℝ) * 2 ^ 43 = 2 ^ 53 := by norm_num
    linarith
  have h3 : a + 1 ≤ 2 ^ 53 := by have : a < 2 ^ 53 := by exact_mod_cast h2
                                 omega
  have h4 : (a : ℝ) + 1 ≤ 2 ^ 53 := by exact_mod_cast h3
  have := mul_le_mul_of_nonneg_right h4 (show (0 : ℝ) ≤ 1 / 2 ^ 43 by positivity)
  have e3 : (2 : ℝ) ^ 53 * (1 / 2 ^ 43) = 1024 := by norm_num
  linarith

theorem exp2_pos_aux {X u E A R : ℝ} (hA : A = exp (X * log 2) * 2 ^ (-1 : ℤ)) (hX : X ≤ 1024 - 1 / 2 ^ 43) (hu2 : u ≤ 1 / 2 ^ 52) (hE0 : 0 ≤ E) (hE : E ≤ 31 / 100)
    (h : |R - A| ≤ u * (A * (1 + E + 6 / 10 ^ 5))) : A ≤ 2 ^ (1023 : ℤ) ∧ R < 2 ^ (1023 : ℤ) := by
  obtain ⟨l1, l2⟩ := log2_bd
  have h1 : exp (X * log 2) ≤ 2 ^ (1024 : ℤ) * (1 - 6 / 10 ^ 14) := by
    have : X * log 2 ≤ (1024 : ℤ) * log 2 + (-(1 / 2 ^ 43 * (693147 / 10 ^ 6))) := by
      have h3 := mul_le_mul_of_nonneg_right hX (show 0 ≤ log 2 by linarith)
      have h4 := mul_le_mul_of_nonneg_left l1 (show (0 : ℝ) ≤ 1 / 2 ^ 43 by positivity)
      push_cast; linarith
    refine le_trans (Real.exp_le_exp.2 this) ?_
    rw [Real.exp_add, exp_int_log]
    refine mul_le_mul_of_nonneg_left ?_ (two_zpow_pos _).le
    have := Real.abs_exp_sub_one_sub_id_le (x := -(1 / 2 ^ 43 * (693147 / 10 ^ 6))) (by norm_num)
    have := (abs_le.1 this).2
    norm_num at this ⊢
    linarith
  have hw : (2 : ℝ) ^ (1024 : ℤ) * 2 ^ (-1 : ℤ) = 2 ^ (1023 : ℤ) := by rw [← zpow_add₀ (by norm_num)]; norm_num
  have hw0 := two_zpow_pos 1023
  have h2 : A ≤ 2 ^ (1023 : ℤ) * (1 - 6 / 10 ^ 14) := by
    rw [hA]
    refine le_trans (mul_le_mul_of_nonneg_right h1 (two_zpow_pos _).le) (le_of_eq ?_)
    rw [mul_right_comm, hw]
  have hA0 : 0 < A := by rw [hA]; exact mul_pos (Real.exp_pos _) (two_zpow_pos _)
  have h3 : u * (A * (1 + E + 6 / 10 ^ 5)) ≤ 1 / 2 ^ 52 * (A * 2) := mul_le_mul hu2 (mul_le_mul_of_nonneg_left (by linarith) hA0.le) (by positivity) (by positivity)
  have h4 := (abs_le.1 h).2
  have h5 : R ≤ A * (1 + 2 / 2 ^ 52) := by linarith
  have h6 := mul_le_mul_of_nonneg_right h2 (show (0 : ℝ) ≤ 1 + 2 / 2 ^ 52 by positivity)
  have h7 : (2 : ℝ) ^ (1023 : ℤ) * ((1 - 6 / 10 ^ 14) * (1 + 2 / 2 ^ 52)) < 2 ^ (1023 : ℤ) * 1 := mul_lt_mul_of_pos_left (by norm_num) hw0
  generalize (2 : ℝ) ^ (1023 : ℤ) = w at *
  constructor <;> linarith

theorem exp2_special_pos (md : Mode) {x : ℕ} (hx : binary64.Finite x) (hb : binary64.val x < 1024) (h : 928 ≤ binary64.val x) :
    ∃ tmp sb ki, CC.exp2Parts md x = (tmp, sb, ki) ∧
      binary64.Finite (CC.expSpecial 1 0x4000000000000000 md tmp sb ki) ∧ 0 ≤ binary64.val (CC.expSpecial 1 0x4000000000000000 md tmp sb ki) ∧
      |binary64.val (CC.expSpecial 1 0x4000000000000000 md tmp sb ki) - exp (binary64.val x * log 2)| ≤
        ru md * (exp2K md * exp (binary64.val x * log 2)) := by
  obtain ⟨k, ki, tmp, p1, p2, p3, p4, p5⟩ := exp2_core md hx (by rw [abs_le]; constructor <;> linarith)
  refine ⟨tmp, sBits ki, ki, p1, ?_⟩
  have hk : 100000 ≤ k ∧ k ≤ 131072 := by
    have h1 := abs_le.1 p4
    have h2 : (100000 : ℝ) ≤ k := by linarith
    have h3 : (k : ℝ) < 131073 := by linarith
    have h4 : k < 131073 := by exact_mod_cast h3
    exact ⟨by exact_mod_cast h2, by omega⟩
  have hsb := sBits_mod (ki := ki) (k := k) 7 (by norm_num) p2
  have hn : ((((sBits ki + 2 ^ 64 - 1 * 2 ^ 52) % 2 ^ 64 : ℕ)) : ℤ) = ((1022 + k / 128 + (-1)) * 2 ^ 52 + tabH (kIdx k)) % 2 ^ 64 := by
    have : ((sBits ki + 2 ^ 64 - 1 * 2 ^ 52 : ℕ) : ℤ) = (sBits ki : ℤ) + 2 ^ 64 - 1 * 2 ^ 52 := by omega
    omega
  have hX := below_1024 h hb
  have hu := ru_pos md
  have hu2 := ru_le md
  have hA0 : 0 < exp (binary64.val x * log 2) * 2 ^ (-1 : ℤ) := mul_pos (Real.exp_pos _) (two_zpow_pos _)
  have hAb : exp (binary64.val x * log 2) * 2 ^ (-1 : ℤ) ≤ (2 : ℝ) ^ (1023 : ℤ) :=
    (exp2_pos_aux (R := exp (binary64.val x * log 2) * 2 ^ (-1 : ℤ)) rfl hX hu2 (exp2E_nonneg md) (exp2E_le md) (by
      rw [sub_self, abs_zero]; have := exp2E_nonneg md; positivity)).1
  obtain ⟨q1, q2, q3, q4, q5, q6, q7, q8, q9, q10, q11⟩ := p5 _ (-1) hn (by omega) (Or.inr ⟨by omega, hAb⟩)
  unfold CC.expSpecial
  rw [if_pos (by rw [ki_sign 7 (by norm_num) p2 (by omega)]; omega)]
  simp only []
  generalize (sBits ki + 2 ^ 64 - 1 * 2 ^ 52) % 2 ^ 64 = n at *
  clear p5 q5 q6 q7 q8 q9 q10 hn hsb
  have hE0 := exp2E_nonneg md
  have hE1 := exp2E_le md
  have f2 : binary64.Finite 0x4000000000000000 := by decide +kernel
  generalize binary64.hadd md n (binary64.hmul md n tmp) = R at *
  have hS := binary64.hmul_spec md f2 q3
  rw [val_two64] at hS
  have hR := (exp2_pos_aux rfl hX hu2 hE0 hE1 q11).2
  have h24 : (2 : ℝ) ^ ((binary64.bias : ℤ) + 1) = 2 ^ (1023 : ℤ) * 2 := by
    have : (binary64.bias : ℤ) + 1 = 1023 + 1 := rfl
    rw [this, zpow_add₀ (by norm_num)]; norm_num
  have hR0 : 0 < binary64.val R := by
    have h3 : ru md * (exp (binary64.val x * log 2) * 2 ^ (-1 : ℤ) * (1 + exp2E md + 6 / 10 ^ 5)) ≤ 1 / 2 ^ 52 * (exp (binary64.val x * log 2) * 2 ^ (-1 : ℤ) * 2) :=
      mul_le_mul hu2 (mul_le_mul_of_nonneg_left (by linarith) hA0.le) (by positivity) (by positivity)
    generalize exp (binary64.val x * log 2) * 2 ^ (-1 : ℤ) = A at *
    have h4 : (1 : ℝ) / 2 ^ 52 * (A * 2) ≤ A * (1 / 10 ^ 5) := by
      have : (1 : ℝ) / 2 ^ 52 * 2 ≤ 1 / 10 ^ 5 := by norm_num
      have := mul_le_mul_of_nonneg_left this hA0.le
      linarith
    have := (abs_le.1 q11).1
    linarith
  obtain ⟨b, b1, b2, -⟩ := binary64.scale_exact (x := R) (k := 1) (Or.inl (by norm_num)) (by
    rw [zpow_one, abs_of_pos (by linarith), h24]
    exact mul_lt_mul_of_pos_right hR (by norm_num))
  obtain ⟨fr, er⟩ := RoundsTo.exact binary64 b1 (by rw [b2, zpow_one]; ring) hS
  refine ⟨fr, by rw [er]; linarith, ?_⟩
  rw [er]
  have hK : 1 + exp2E md + 6 / 10 ^ 5 ≤ exp2K md := by have := exp2K_ge md; linarith
  have hAx : exp (binary64.val x * log 2) * 2 ^ (-1 : ℤ) * 2 = exp (binary64.val x * log 2) := by
    rw [mul_assoc]; norm_num
  have h5 := le_trans q11 (mul_le_mul_of_nonneg_left (mul_le_mul_of_nonneg_left hK hA0.le) hu.le)
  generalize exp (binary64.val x * log 2) = ex at *
  generalize ex * 2 ^ (-1 : ℤ) = A at *
  have e1 : 2 * binary64.val R - ex = 2 * (binary64.val R - A) := by rw [← hAx]; ring
  rw [e1, abs_mul, abs_of_pos (show (0 : ℝ) < 2 by norm_num), ← hAx]
  linarith

theorem exp2Double_cases (md : Mode) {x : ℕ} (hx : binary64.Finite x) :
    (binary64.val x < 1024 →
      binary64.Finite (CC.exp2Double md x) ∧ 0 ≤ binary64.val (CC.exp2Double md x) ∧
        |binary64.val (CC.exp2Double md x) - exp (binary64.val x * log 2)| ≤ ru md * (exp2K md * exp (binary64.val x * log 2) + expS md * 2 ^ (-1022 : ℤ))) ∧
    (1024 ≤ binary64.val x → CC.exp2Double md x = binary64.ovf md false) := by
  have hT := finite_bexp hx
  have hS0 : 0 ≤ ru md * (expS md * 2 ^ (-1022 : ℤ)) := mul_nonneg (ru_pos md).le (mul_nonneg (by have := expS_ge md; linarith) (two_zpow_pos _).le)
  have hxv : x < 2 ^ 64 := hx.valid
  have hmag : binary64.mag x = x % 2 ^ 63 := rfl
  unfold CC.exp2Double
  simp only [absTop_eq]
  by_cases h1 : binary64.bexp x < 0x3c9
  · rw [if_pos (by constructor <;> omega)]
    have h2 := abs_lt_of_bexp (by norm_num) h1
    have e : (2 : ℝ) ^ (((0x3c9 : ℕ) : ℤ) - 1023) = 1 / 2 ^ 54 := by
      rw [show ((0x3c9 : ℕ) : ℤ) - 1023 = -54 by norm_num, zpow_neg, one_div]; norm_cast
    rw [e] at h2
    obtain ⟨a1, a2, a3⟩ := exp2_tiny md hx h2
    refine ⟨fun _ => ⟨a1, a2, by rw [mul_add]; linarith⟩, fun h => ?_⟩
    exfalso
    have := (abs_lt.1 h2).2
    have c : (1 : ℝ) / 2 ^ 54 ≤ 1 := by norm_num
    linarith
  rw [if_neg (by omega), if_neg (by
      rintro ⟨-, -, hc⟩; rw [hc] at hT; revert hT; decide +kernel), if_neg (by omega)]
  have e4 : (2 : ℝ) ^ (((0x409 : ℕ) : ℤ) - 1023) = 1024 := by
    rw [show ((0x409 : ℕ) : ℤ) - 1023 = 10 by norm_num]; norm_num
  have hbig : 0x409 ≤ binary64.bexp x ↔ 1024 ≤ |binary64.val x| := by rw [bexp_ge (x := x) (by norm_num), e4]
  have e2 : (2 : ℝ) ^ (((0x408 : ℕ) : ℤ) - 1023) = 512 := by
    rw [show ((0x408 : ℕ) : ℤ) - 1023 = 9 by norm_num]; norm_num
  have hmid : 0x408 ≤ binary64.bexp x ↔ 512 ≤ |binary64.val x| := by rw [bexp_ge (x := x) (by norm_num), e2]
  have h928 := mag_lt_iff (x := x) (y := 0x408D000000000000) (by decide +kernel) (by rw [val_928]; norm_num)
  have h1075 := mag_le_iff (x := x) (y := 0x4090CC0000000000) (by decide +kernel) (by rw [val_1075]; norm_num)
  rw [val_928] at h928
  rw [val_1075] at h1075
  have hs2 : x >>> 63 = x / 2 ^ 63 := Nat.shiftRight_eq_div_pow _ _
  by_cases hpos : x >>> 63 = 0
  · have hv := nonneg_of_shift (x := x) (by simpa using hpos)
    rw [abs_of_nonneg hv] at hbig hmid h928 h1075
    by_cases h3 : 0x409 ≤ binary64.bexp x
    · rw [if_pos (by refine ⟨?_, h3, hpos⟩; omega)]
      exact ⟨fun h => by exfalso; have := hbig.1 h3; linarith, fun _ => by cases md <;> decide +kernel⟩
    rw [if_neg (by omega), if_neg (by omega)]
    have hlt : binary64.val x < 1024 := by rw [← not_le, ← hbig]; exact h3
    refine ⟨fun _ => ?_, fun h => by exfalso; linarith⟩
    rcases le_or_gt (binary64.val x) 928 with h4 | h4
    · obtain ⟨tmp, sb, ki, p1, p2, p3, p4⟩ := exp2_normal md hx (by rw [abs_of_nonneg hv]; exact h4)
      rw [p1]
      simp only []
      rw [if_neg (by
        rintro ⟨-, hc⟩
        have : 0x408D000000000000 < binary64.mag x := by rw [hmag]; omega
        rw [h928] at this; linarith)]
      exact ⟨p2, p3, by rw [mul_add]; linarith⟩
    · obtain ⟨tmp, sb, ki, p1, p2, p3, p4⟩ := exp2_special_pos md hx hlt h4.le
      rw [p1]
      simp only []
      rw [if_pos (by
        refine ⟨?_, ?_⟩
        · have := hmid.2 (by linarith); omega
        · have := h928.2 h4
          rw [hmag] at this; omega)]
      exact ⟨p2, p3, by rw [mul_add]; linarith⟩
  · have hv := neg_of_shift (x := x) hpos
    rw [abs_of_nonpos hv] at hbig hmid h928 h1075
    rw [if_neg (by tauto)]
    refine ⟨fun _ => ?_, fun h => by exfalso; linarith⟩
    by_cases h3 : 1075 ≤ -binary64.val x
    · have h4 := h1075.2 h3
      have h5 := hbig.2 (by linarith)
      rw [hmag] at h4
      rw [if_pos (by refine ⟨?_, h5, ?_⟩ <;> omega)]
      have f0 : binary64.Finite (binary64.hmul md 0x1000000000000000 0x1000000000000000) := by cases md <;> decide +kernel
      have hvv : binary64.val (binary64.hmul md 0x1000000000000000 0x1000000000000000) = if md = .up then binary64.minSub else 0 := by
        have hup : binary64.hmul .up 0x1000000000000000 0x1000000000000000 = 1 := by decide +kernel
        have hz : ∀ m : Mode, m ≠ .up → binary64.hmul m 0x1000000000000000 0x1000000000000000 = 0 := by
          intro m hm; cases m <;> first | decide +kernel | exact absurd rfl hm
        split_ifs with hm
        · rw [hm, hup, binary64.val_eq]
          have : binary64.umag (binary64.mag 1) = 1 := by decide +kernel
          rw [this]
          have : binary64.sgn 1 = false := by decide +kernel
          rw [this]; simp [sg]
        · rw [hz md hm]; exact (binary64.val_eq_zero_iff _).2 (by decide +kernel)
      have hms := binary64.minSub_pos
      have hEx := Real.exp_pos (binary64.val x * log 2)
      have hsm : exp (binary64.val x * log 2) ≤ 1 / 2 * eta := by
        refine le_trans (exp_le_zpow (-1075) (mul_le_mul_of_nonneg_right (by push_cast; linarith) (by have := log2_bd.1; linarith))) ?_
        rw [eta_eq, show (-1075 : ℤ) = -1 + -1074 from rfl, zpow_add₀ (by norm_num)]
        refine mul_le_mul_of_nonneg_right ?_ (two_zpow_pos _).le
        norm_num
      refine ⟨f0, by rw [hvv]; split_ifs <;> linarith, ?_⟩
      rw [mul_add, ru_S, hvv, ← eta_eq]
      have hkk : 0 ≤ ru md * (exp2K md * exp (binary64.val x * log 2)) := mul_nonneg (ru_pos md).le (mul_nonneg (by have := exp2K_ge1 md; linarith) hEx.le)
      have hη := eta_pos
      have hem : binary64.minSub = eta := rfl
      rw [hem]
      by_cases hm : md = .up
      · rw [if_pos hm, if_neg (by rw [hm]; decide), abs_of_nonneg (by linarith)]
        linarith
      · rw [if_neg hm, zero_sub, abs_neg, abs_of_pos hEx]
        split_ifs <;> linarith
    · rw [if_neg (by
        rintro ⟨-, -, hc⟩
        have : 0x4090CC0000000000 ≤ binary64.mag x := by rw [hmag]; omega
        rw [h1075] at this; linarith)]
      rcases le_or_gt (-binary64.val x) 928 with h4 | h4
      · obtain ⟨tmp, sb, ki, p1, p2, p3, p4⟩ := exp2_normal md hx (by rw [abs_of_nonpos hv]; exact h4)
        rw [p1]
        simp only []
        rw [if_neg (by
          rintro ⟨-, hc⟩
          have : 0x408D000000000000 < binary64.mag x := by rw [hmag]; omega
          rw [h928] at this; linarith)]
        exact ⟨p2, p3, by rw [mul_add]; linarith⟩
      · obtain ⟨tmp, sb, ki, p1, p2, p3, p4⟩ := exp2_special_neg md hx (by linarith) (by linarith)
        rw [p1]
        simp only []
        rw [if_pos (by
          refine ⟨?_, ?_⟩
          · have := hmid.2 (by linarith); omega
          · have := h928.2 h4
            rw [hmag] at this; omega)]
        exact ⟨p2, p3, p4⟩

theorem rpow_exp (y : ℝ) : (2 : ℝ) ^ y = exp (y * log 2) := by rw [Real.rpow_def_of_pos (by norm_num), mul_comm]

theorem ru_K2 (md : Mode) : ru md * exp2K md = if md = .nearest then 1.07 / 2 ^ 53 else 1.32 / 2 ^ 52 := by
  unfold ru exp2K; split_ifs <;> norm_num

/-- **C64.** For every finite double `x` below 1024 `exp2(x)` is finite, not negative and within a relative error of `1.07 · 2^-53`
(round to nearest; `1.32 · 2^-52` in the directed modes) of `2^x`, plus 0.51 (1.01) times the least subnormal. -/
theorem C64_exp2_accuracy (md : Mode) {x : ℕ} (hx : binary64.Finite x) (hlt : binary64.val x < 1024) :
    binary64.Finite (CC.exp2Double md x) ∧ 0 ≤ binary64.val (CC.exp2Double md x) ∧
      |binary64.val (CC.exp2Double md x) - (2 : ℝ) ^ (binary64.val x)| ≤
        (if md = .nearest then 1.07 / 2 ^ 53 else 1.32 / 2 ^ 52) * (2 : ℝ) ^ (binary64.val x) + (if md = .nearest then 0.51 else 1.01) * (2 : ℝ) ^ (-1074 : ℤ) := by
  obtain ⟨h1, h2, h3⟩ := (exp2Double_cases md hx).1 hlt
  refine ⟨h1, h2, ?_⟩
  rw [rpow_exp]
  refine le_trans h3 (le_of_eq ?_)
  rw [mul_add, ru_S, ← mul_assoc, ru_K2]

-- exp2(0.5), exp2(-1074.999...) (the least subnormal), exp2(1023.999...)
example : binary64.Finite 0x3FE0000000000000 ∧ CC.exp2Double .nearest 0x3FE0000000000000 = 0x3FF6A09E667F3BCD := by decide +kernel
example : binary64.Finite 0xC090CBFFFFFFFFFF ∧ CC.exp2Double .nearest 0xC090CBFFFFFFFFFF = 1 := by decide +kernel
example : binary64.Finite 0x408FFFFFFFFFFFFF ∧ CC.exp2Double .nearest 0x408FFFFFFFFFFFFF = 9218868437227404602 := by decide +kernel

/-- **C64.** From 1024 on `2^x` is at least `2^1024`, and the result is the overflow result of the rounding mode. -/
theorem C64_exp2_overflow (md : Mode) {x : ℕ} (hx : binary64.Finite x) (hge : 1024 ≤ binary64.val x) :
    CC.exp2Double md x = if md = .nearest ∨ md = .up then 0x7FF0000000000000 else 0x7FEFFFFFFFFFFFFF := by
  rw [(exp2Double_cases md hx).2 hge]
  cases md <;> decide +kernel

example : binary64.Finite 0x4090000000000000 ∧ CC.exp2Double .nearest 0x4090000000000000 = 0x7FF0000000000000 ∧
    CC.exp2Double .down 0x4090000000000000 = 0x7FEFFFFFFFFFFFFF := by decide +kernel

/-- **C64.** Special arguments: `exp2(±0) = 1`, `exp2(+∞) = +∞`, `exp2(-∞) = +0`, and a NaN gives a NaN. -/
theorem C64_exp2_special (md : Mode) :
    CC.exp2Double md 0 = 0x3FF0000000000000 ∧ CC.exp2Double md 0x8000000000000000 = 0x3FF0000000000000 ∧
      CC.exp2Double md 0x7FF0000000000000 = 0x7FF0000000000000 ∧ CC.exp2Double md 0xFFF0000000000000 = 0 ∧
      ∀ x, binary64.IsNaN x → binary64.IsNaN (CC.exp2Double md x) := by
  refine ⟨by cases md <;> decide +kernel, by cases md <;> decide +kernel, by cases md <;> decide +kernel, by cases md <;> decide +kernel, ?_⟩
  intro x hx
  have hT : binary64.bexp x = 2047 := hx.2.1
  unfold CC.exp2Double
  simp only [absTop_eq, hT]
  rw [if_neg (by omega), if_neg (by
    rintro ⟨-, -, hc⟩; rw [hc] at hx; revert hx; decide +kernel), if_pos (by omega)]
  unfold hadd
  rw [if_pos (by rw [(binary64.nanB_iff hx.1).2 hx]; simp)]
  exact binary64.isNaN_qnan

example : binary64.IsNaN 0x7FF8000000000001 := by decide +kernel

/-! ### integer arguments -/

theorem zmul {md : Mode} {a b : ℕ} (fa : binary64.Finite a) (fb : binary64.Finite b) (h : binary64.val a * binary64.val b = 0) :
    binary64.Finite (binary64.hmul md a b) ∧ binary64.val (binary64.hmul md a b) = 0 := by
  have R := binary64.hmul_spec md fa fb
  rw [h] at R
  exact RoundsTo.exact binary64 (show binary64.Finite 0 by decide +kernel) ((binary64.val_eq_zero_iff _).2 (by decide +kernel)) R

theorem zadd {md : Mode} {a b : ℕ} (fa : binary64.Finite a) (fb : binary64.Finite b) (h : binary64.val b = 0) :
    binary64.Finite (binary64.hadd md a b) ∧ binary64.val (binary64.hadd md a b) = binary64.val a := by
  have R := binary64.hadd_spec md fa fb
  rw [h, add_zero] at R
  exact RoundsTo.exact binary64 fa rfl R

theorem zsub {md : Mode} {a b : ℕ} (fa : binary64.Finite a) (fb : binary64.Finite b) (h : binary64.val a = binary64.val b) :
    binary64.Finite (binary64.hsub md a b) ∧ binary64.val (binary64.hsub md a b) = 0 := by
  have R := binary64.hsub_spec md fa fb
  rw [h, sub_self] at R
  exact RoundsTo.exact binary64 (show binary64.Finite 0 by decide +kernel) ((binary64.val_eq_zero_iff _).2 (by decide +kernel)) R

theorem exp2Parts_int (md : Mode) {x : ℕ} {n : ℤ} (hx : binary64.Finite x) (hn : binary64.val x = n) (hb : |n| ≤ 1100) :
    ∃ ki tmp : ℕ, CC.exp2Parts md x = (tmp, sBits ki, ki) ∧ (ki : ℤ) = (0x433 - (7 : ℕ)) * 2 ^ 52 + 2 ^ 51 + 128 * n ∧ binary64.Finite tmp ∧ binary64.val tmp = 0 := by
  have hbR : |binary64.val x| ≤ 1100 := by rw [hn]; exact_mod_cast hb
  obtain ⟨k, k1, -, k3, k4, k5⟩ := shift64' md 7 (by norm_num) (sh := CC.exp2Shift) hx (by decide +kernel) (le_trans hbR (by norm_num))
  have e7 : (2 : ℝ) ^ (-((7 : ℕ) : ℤ)) = 1 / 128 := by norm_num
  rw [e7] at k4 k5
  have hk : k = 128 * n := by
    rw [hn] at k5
    have e : (n : ℝ) - k * (1 / 128) = ((128 * n - k : ℤ) : ℝ) * (1 / 128) := by push_cast; ring
    rw [e, abs_mul, abs_of_pos (show (0 : ℝ) < 1 / 128 by norm_num)] at k5
    have h1 : |((128 * n - k : ℤ) : ℝ)| < 1 := by linarith
    have h2 : |128 * n - k| < 1 := by exact_mod_cast h1
    have := abs_lt.1 h2
    omega
  have hm := ki_mod (k := k) 7 (by norm_num) k1
  have hi : kIdx k = 0 := by unfold kIdx; omega
  rw [hi] at hm
  have fC1 : binary64.Finite CC.exp2C1 := by decide +kernel
  have fC2 : binary64.Finite CC.exp2C2 := by decide +kernel
  have fC3 : binary64.Finite CC.exp2C3 := by decide +kernel
  have fC4 : binary64.Finite CC.exp2C4 := by decide +kernel
  have fC5 : binary64.Finite CC.exp2C5 := by decide +kernel
  have t0 : CC.expTab.getD 0 0 = 0 := by decide +kernel
  have f0 : binary64.Finite 0 := by decide +kernel
  have v0 : binary64.val 0 = 0 := (binary64.val_eq_zero_iff _).2 (by decide +kernel)
  obtain ⟨fr, vr⟩ := zsub (md := md) hx k3 (by rw [k4, hn, hk]; push_cast; ring)
  refine ⟨binary64.hadd md x CC.exp2Shift, _, rfl, by rw [k1, hk], ?_⟩
  rw [hm, mul_zero, t0]
  generalize binary64.hsub md x (binary64.hsub md (binary64.hadd md x CC.exp2Shift) CC.exp2Shift) = r at *
  obtain ⟨f1, v1⟩ := zmul (md := md) fr fC1 (by rw [vr, zero_mul])
  obtain ⟨f3, v3⟩ := zmul (md := md) fr fC3 (by rw [vr, zero_mul])
  obtain ⟨f5, v5⟩ := zmul (md := md) fr fC5 (by rw [vr, zero_mul])
  obtain ⟨f2, v2⟩ := zmul (md := md) fr fr (by rw [vr, zero_mul])
  obtain ⟨g1, w1⟩ := zadd (md := md) f0 f1 v1
  rw [v0] at w1
  obtain ⟨g2, w2⟩ := zadd (md := md) fC2 f3 v3
  obtain ⟨g3, w3⟩ := zadd (md := md) fC4 f5 v5
  obtain ⟨g4, w4⟩ := zmul (md := md) f2 g2 (by rw [v2, zero_mul])
  obtain ⟨g5, w5⟩ := zmul (md := md) f2 f2 (by rw [v2, zero_mul])
  obtain ⟨g6, w6⟩ := zmul (md := md) g5 g3 (by rw [w5, zero_mul])
  obtain ⟨g7, w7⟩ := zadd (md := md) g1 g4 w4
  obtain ⟨g8, w8⟩ := zadd (md := md) g7 g6 w6
  exact ⟨g8, by rw [w8, w7, w1]⟩

theorem zscale (md : Mode) {n tmp : ℕ} (fn : binary64.Finite n) (ft : binary64.Finite tmp) (vt : binary64.val tmp = 0) :
    binary64.Finite (binary64.hadd md n (binary64.hmul md n tmp)) ∧ binary64.val (binary64.hadd md n (binary64.hmul md n tmp)) = binary64.val n := by
  obtain ⟨f1, v1⟩ := zmul (md := md) fn ft (by rw [vt, mul_zero])
  exact zadd fn f1 v1

theorem scale_int {sb : ℕ} {n c : ℤ} (h : (sb : ℤ) = ((1022 + 128 * n / 128 + c) * 2 ^ 52 + tabH (kIdx (128 * n))) % 2 ^ 64) (h1 : -1022 ≤ n + c) (h2 : n + c ≤ 1023) :
    binary64.Finite sb ∧ binary64.val sb = (2 : ℝ) ^ (n + c) := by
  have hd : 128 * n / 128 = n := by omega
  obtain ⟨a, b⟩ := scale64 (k := 128 * n) (c := c) h (by omega) (by omega)
  refine ⟨a, ?_⟩
  have hi : kIdx (128 * n) = 0 := by unfold kIdx; omega
  have ht : tabH 0 = 2 ^ 52 := by decide +kernel
  rw [b, hi, ht, hd]
  norm_num

/-- the subnormal tail of `specialcase` leaves a power of two alone -/
theorem special_int (md : Mode) {big scl : ℕ} {n : ℤ} {ki tmp : ℕ} (p2 : (ki : ℤ) = (0x433 - (7 : ℕ)) * 2 ^ 52 + 2 ^ 51 + 128 * n)
    (ft : binary64.Finite tmp) (vt : binary64.val tmp = 0) (h1 : -1074 ≤ n) (h2 : n ≤ -928) :
    binary64.Finite (CC.expSpecial big scl md tmp (sBits ki) ki) ∧ binary64.val (CC.expSpecial big scl md tmp (sBits ki) ki) = (2 : ℝ) ^ n := by
  have hsb := sBits_mod (ki := ki) (k := 128 * n) 7 (by norm_num) p2
  have hn : ((((sBits ki + 1022 * 2 ^ 52) % 2 ^ 64 : ℕ)) : ℤ) = ((1022 + 128 * n / 128 + 1022) * 2 ^ 52 + tabH (kIdx (128 * n))) % 2 ^ 64 := by
    have : ((sBits ki + 1022 * 2 ^ 52 : ℕ) : ℤ) = (sBits ki : ℤ) + 1022 * 2 ^ 52 := by push_cast; rfl
    omega
  obtain ⟨fs, vs⟩ := scale_int hn (by omega) (by omega)
  unfold CC.expSpecial
  rw [if_neg (by rw [ki_sign 7 (by norm_num) p2 (by rw [abs_le]; omega)]; omega)]
  simp only []
  generalize (sBits ki + 1022 * 2 ^ 52) % 2 ^ 64 = s at *
  have f1 : binary64.Finite 0x3FF0000000000000 := by decide +kernel
  obtain ⟨fm, vm⟩ := val_m1022
  obtain ⟨ft2, vt2⟩ := zmul (md := md) fs ft (by rw [vt, mul_zero])
  obtain ⟨fR, vR⟩ := zadd (md := md) fs ft2 vt2
  have hfin : ∀ y, binary64.Finite y → binary64.val y = (2 : ℝ) ^ (n + 1022) →
      binary64.Finite (binary64.hmul md 0x0010000000000000 y) ∧ binary64.val (binary64.hmul md 0x0010000000000000 y) = (2 : ℝ) ^ n := by
    intro y fy vy
    have R := binary64.hmul_spec md fm fy
    have e : (2 : ℝ) ^ (-1022 : ℤ) * 2 ^ (n + 1022) = 2 ^ n := by rw [← zpow_add₀ (by norm_num)]; congr 1; ring
    rw [vm, vy, e] at R
    have hp := two_zpow_pos n
    exact ex64 n R ⟨1, by simp⟩ h1 (by rw [abs_of_pos hp]; exact two_zpow_le (by omega)) (by
      rw [abs_of_pos hp]
      refine le_trans (two_zpow_le (show n ≤ 0 by omega)) ?_
      rw [zpow_zero]; norm_num)
  by_cases hlt : n < -1022
  · have hpos := two_zpow_pos (n + 1022)
    have hlt1 : (2 : ℝ) ^ (n + 1022) < 1 := by
      have := two_zpow_lt (show n + 1022 < 0 by omega)
      rwa [zpow_zero] at this
    rw [if_pos (by rw [CC.hlt_finite binary64 fR f1, val_one64, vR, vs]; exact hlt1)]
    obtain ⟨g1, w1⟩ := zsub (md := md) fs fR vR.symm
    obtain ⟨g2, w2⟩ := zadd (md := md) g1 ft2 vt2
    have hM : Mult (-52) ((2 : ℝ) ^ (n + 1022)) := Mult.weaken (g := n + 1022) ⟨1, by simp⟩ (by omega)
    have c200 : (2 : ℝ) ≤ 2 ^ 200 := by norm_num
    have hM1 : Mult (-52) (1 : ℝ) := ⟨2 ^ 52, by rw [zpow_neg]; norm_num⟩
    have c1 : (2 : ℝ) ≤ 2 ^ ((-52 : ℤ) + 53) := by norm_num
    obtain ⟨g3, w3⟩ := ex64 (-52) (binary64.hadd_spec md f1 fR) (by rw [val_one64, vR, vs]; exact hM1.add hM) (by norm_num)
      (by rw [val_one64, vR, vs, abs_of_pos (by linarith)]; linarith) (by rw [val_one64, vR, vs, abs_of_pos (by linarith)]; linarith)
    rw [val_one64, vR, vs] at w3
    have e4 : (1 : ℝ) - (1 + 2 ^ (n + 1022)) = -2 ^ (n + 1022) := by ring
    obtain ⟨g4, w4⟩ := ex64 (-52) (binary64.hsub_spec md f1 g3) (by rw [val_one64, w3, e4]; exact hM.neg) (by norm_num)
      (by rw [val_one64, w3, e4, abs_neg, abs_of_pos hpos]; linarith) (by rw [val_one64, w3, e4, abs_neg, abs_of_pos hpos]; linarith)
    rw [val_one64, w3, e4] at w4
    have R5 := binary64.hadd_spec md g4 fR
    rw [w4, vR, vs, neg_add_cancel] at R5
    obtain ⟨g5, w5⟩ := RoundsTo.exact binary64 (show binary64.Finite 0 by decide +kernel) ((binary64.val_eq_zero_iff _).2 (by decide +kernel)) R5
    rw [w1] at w2
    obtain ⟨g6, w6⟩ := zadd (md := md) g5 g2 w2
    rw [w5] at w6
    obtain ⟨g7, w7⟩ := zadd (md := md) g3 g6 w6
    rw [w3] at w7
    have e8 : (1 : ℝ) + 2 ^ (n + 1022) - 1 = 2 ^ (n + 1022) := by ring
    obtain ⟨g8, w8⟩ := ex64 (-52) (binary64.hsub_spec md g7 f1) (by rw [val_one64, w7, e8]; exact hM) (by norm_num)
      (by rw [val_one64, w7, e8, abs_of_pos hpos]; linarith) (by rw [val_one64, w7, e8, abs_of_pos hpos]; linarith)
    rw [val_one64, w7, e8] at w8
    have f0 : binary64.Finite 0 := by decide +kernel
    have v0 : binary64.val 0 = 0 := (binary64.val_eq_zero_iff _).2 (by decide +kernel)
    rw [if_neg (by rw [CC.heq_finite binary64 g8 f0, w8, v0]; exact hpos.ne')]
    exact hfin _ g8 w8
  · rw [if_neg (by
      rw [CC.hlt_finite binary64 fR f1, val_one64, vR, vs, not_lt]
      have := two_zpow_le (show 0 ≤ n + 1022 by omega)
      rwa [zpow_zero] at this)]
    exact hfin _ fR (by rw [vR, vs])

/-- **C64.** For an integer argument whose power of two is representable, `exp2` returns that power exactly, in every rounding mode. -/
theorem C64_exp2_integer (md : Mode) {x : ℕ} {n : ℤ} (hx : binary64.Finite x) (hn : binary64.val x = n) (h1 : -1074 ≤ n) (h2 : n ≤ 1023) :
    binary64.Finite (CC.exp2Double md x) ∧ binary64.val (CC.exp2Double md x) = (2 : ℝ) ^ n := by
  by_cases hn0 : n = 0
  · subst hn0
    have hz := (binary64.val_eq_zero_iff x).1 (by rw [hn]; norm_num)
    have hxv : x < 2 ^ 64 := hx.valid
    have hm : binary64.mag x = x % 2 ^ 63 := rfl
    have : x = 0 ∨ x = 0x8000000000000000 := by omega
    obtain ⟨s1, s2, -⟩ := C64_exp2_special md
    rw [zpow_zero]
    rcases this with h | h <;> rw [h]
    · rw [s1]; exact ⟨by decide +kernel, val_one64⟩
    · rw [s2]; exact ⟨by decide +kernel, val_one64⟩
  obtain ⟨ki, tmp, p1, p2, p3, p4⟩ := exp2Parts_int md hx hn (by rw [abs_le]; omega)
  have hT := finite_bexp hx
  have hxv : x < 2 ^ 64 := hx.valid
  have hmag : binary64.mag x = x % 2 ^ 63 := rfl
  have habs : |binary64.val x| = ((|n| : ℤ) : ℝ) := by rw [hn]; push_cast; rfl
  have hge1 : 1 ≤ |n| := Int.one_le_abs hn0
  have h928 := mag_lt_iff (x := x) (y := 0x408D000000000000) (by decide +kernel) (by rw [val_928]; norm_num)
  have h1075 := mag_le_iff (x := x) (y := 0x4090CC0000000000) (by decide +kernel) (by rw [val_1075]; norm_num)
  have e4 : (2 : ℝ) ^ (((0x409 : ℕ) : ℤ) - 1023) = ((1024 : ℤ) : ℝ) := by
    rw [show ((0x409 : ℕ) : ℤ) - 1023 = 10 by norm_num]; norm_num
  have hbig : 0x409 ≤ binary64.bexp x ↔ 1024 ≤ |n| := by rw [bexp_ge (x := x) (by norm_num), e4, habs, Int.cast_le]
  have e2 : (2 : ℝ) ^ (((0x408 : ℕ) : ℤ) - 1023) = ((512 : ℤ) : ℝ) := by
    rw [show ((0x408 : ℕ) : ℤ) - 1023 = 9 by norm_num]; norm_num
  have hmid : 0x408 ≤ binary64.bexp x ↔ 512 ≤ |n| := by rw [bexp_ge (x := x) (by norm_num), e2, habs, Int.cast_le]
  have e0 : (2 : ℝ) ^ (((0x3ff : ℕ) : ℤ) - 1023) = ((1 : ℤ) : ℝ) := by
    rw [show ((0x3ff : ℕ) : ℤ) - 1023 = 0 by norm_num]; norm_num
  have hlow : 0x3ff ≤ binary64.bexp x ↔ 1 ≤ |n| := by rw [bexp_ge (x := x) (by norm_num), e0, habs, Int.cast_le]
  have hlow' := hlow.2 hge1
  rw [val_928, habs, show (928 : ℝ) = ((928 : ℤ) : ℝ) by norm_num, Int.cast_lt, hmag] at h928
  rw [val_1075, habs, show (1075 : ℝ) = ((1075 : ℤ) : ℝ) by norm_num, Int.cast_le, hmag] at h1075
  have hpos : x >>> 63 = 0 → 0 ≤ n := by
    intro h
    have := nonneg_of_shift (x := x) (by simpa using h)
    rw [hn] at this; exact_mod_cast this
  have hneg : x >>> 63 ≠ 0 → n ≤ 0 := by
    intro h
    have := neg_of_shift (x := x) h
    rw [hn] at this; exact_mod_cast this
  unfold CC.exp2Double
  simp only [absTop_eq]
  have hs2 : x >>> 63 = x / 2 ^ 63 := Nat.shiftRight_eq_div_pow _ _
  rw [if_neg (by omega), if_neg (by
      rintro ⟨-, -, hc⟩; rw [hc] at hT; revert hT; decide +kernel), if_neg (by omega), if_neg (by
      rintro ⟨-, hc, hc2⟩
      have := hpos hc2
      have := hbig.1 hc
      rw [abs_of_nonneg (by assumption)] at this
      omega), if_neg (by
      rintro ⟨-, -, hc⟩
      have : 1075 ≤ |n| := h1075.1 (by omega)
      rcases abs_cases n with ⟨h, -⟩ | ⟨h, -⟩ <;> omega)]
  rw [p1]
  simp only []
  have hsb := sBits_mod (ki := ki) (k := 128 * n) 7 (by norm_num) p2
  by_cases h4 : |n| ≤ 928
  · rw [if_neg (by
      rintro ⟨-, hc⟩
      have : 928 < |n| := h928.1 (by omega)
      omega)]
    have h5 := abs_le.1 h4
    obtain ⟨fs, vs⟩ := scale_int (c := 0) (by rw [add_zero]; exact hsb) (by omega) (by omega)
    rw [add_zero] at vs
    obtain ⟨a, b⟩ := zscale md fs p3 p4
    exact ⟨a, by rw [b, vs]⟩
  · have h5 : 928 < |n| := by omega
    rw [if_pos (by
      refine ⟨?_, ?_⟩
      · have := hmid.2 (by omega); omega
      · have := h928.2 h5; omega)]
    rcases le_or_gt n 0 with h6 | h6
    · rw [abs_of_nonpos h6] at h5
      exact special_int md p2 p3 p4 h1 (by omega)
    · rw [abs_of_pos h6] at h5
      have hn : ((((sBits ki + 2 ^ 64 - 1 * 2 ^ 52) % 2 ^ 64 : ℕ)) : ℤ) = ((1022 + 128 * n / 128 + (-1)) * 2 ^ 52 + tabH (kIdx (128 * n))) % 2 ^ 64 := by
        have : ((sBits ki + 2 ^ 64 - 1 * 2 ^ 52 : ℕ) : ℤ) = (sBits ki : ℤ) + 2 ^ 64 - 1 * 2 ^ 52 := by omega
        omega
      unfold CC.expSpecial
      rw [if_pos (by rw [ki_sign 7 (by norm_num) p2 (by rw [abs_le]; omega)]; omega)]
      simp only []
      obtain ⟨fs, vs⟩ := scale_int hn (by omega) (by omega)
      obtain ⟨a, b⟩ := zscale md fs p3 p4
      generalize binary64.hadd md _ _ = R at *
      have f2 : binary64.Finite 0x4000000000000000 := by decide +kernel
      have hS := binary64.hmul_spec md f2 a
      have e : 2 * (2 : ℝ) ^ (n + -1) = 2 ^ n := by rw [show n = (n + -1) + 1 by ring, two_zpow_succ]; ring_nf
      rw [val_two64, b, vs, e] at hS
      obtain ⟨c, c1, c2, -⟩ := binary64.scale_exact (x := 0x3FF0000000000000) (k := n) (Or.inl (by omega)) (by
        rw [val_one64, one_mul, abs_of_pos (two_zpow_pos n)]
        exact two_zpow_lt (show n < 1024 by omega))
      rw [val_one64, one_mul] at c2
      exact RoundsTo.exact binary64 c1 c2 hS

-- 10, -1074 and 1023
example : binary64.val 0x4024000000000000 = ((10 : ℤ) : ℝ) := by
  rw [lit64 false 0x14000000000000 49 (by decide +kernel) (by decide +kernel) (by decide +kernel) (by decide +kernel)]; norm_num [sg]
example : CC.exp2Double .up 0x4024000000000000 = 0x4090000000000000 ∧ CC.exp2Double .down 0xC090C80000000000 = 1 ∧
    CC.exp2Double .nearest 0x408FF80000000000 = 0x7FE0000000000000 := by decide +kernel

end Verif
