import Verif.Lemmas.Exp10

/-!
# `expm1` for doubles: the series
-/

namespace Verif
open Fmt Real

/-- one step `c + x * p` of Horner's rule -/
theorem horner64 (md : Mode) {x c p : ℕ} (hx : binary64.Finite x) (hc : binary64.Finite c) (hp : binary64.Finite p) {P ε B C : ℝ}
    (hX : |binary64.val x| ≤ 1 / 8) (hP : |binary64.val p - P| ≤ ru md * ε) (hB : |P| ≤ B) (hC : |binary64.val c| ≤ C) (hB1 : B ≤ 1) (hC1 : C ≤ 1) (hε : ε ≤ 2) :
    binary64.Finite (binary64.hadd md c (binary64.hmul md x p)) ∧
      |binary64.val (binary64.hadd md c (binary64.hmul md x p)) - (binary64.val c + binary64.val x * P)| ≤ ru md * (ε / 8 + B / 4 + C + 1 / 10 ^ 9) := by
  have hu := ru_pos md
  have hu2 := ru_le md
  have hB0 : 0 ≤ B := le_trans (abs_nonneg _) hB
  have hC0 : 0 ≤ C := le_trans (abs_nonneg _) hC
  have hε0 : 0 ≤ ru md * ε := le_trans (abs_nonneg _) hP
  have huε : ru md * ε ≤ 1 / 2 ^ 52 * 2 := by
    have h1 : ru md * ε ≤ ru md * 2 := mul_le_mul_of_nonneg_left hε hu.le
    linarith
  have hp2 : |binary64.val p| ≤ B + 1 / 2 ^ 51 := by
    refine le_trans (abs_near hP hB) ?_
    have : (1 : ℝ) / 2 ^ 52 * 2 = 1 / 2 ^ 51 := by norm_num
    linarith
  have hxp : |binary64.val x * binary64.val p| ≤ 1 / 8 * (B + 1 / 2 ^ 51) := abs_mul_le hX hp2
  have c51 : (1 : ℝ) / 2 ^ 51 ≤ 1 / 10 ^ 12 := by norm_num
  obtain ⟨f1, e1⟩ := st_mul md hx hp hxp (by have : (2 : ℝ) ≤ 2 ^ 100 := by norm_num
                                             linarith)
  have c140 : (1 : ℝ) / 2 ^ 140 ≤ 1 / 10 ^ 12 := by norm_num
  have e1' : |binary64.val (binary64.hmul md x p) - binary64.val x * binary64.val p| ≤ ru md * (B / 8 + 1 / 10 ^ 11) :=
    le_trans e1 (mul_le_mul_of_nonneg_left (by linarith) hu.le)
  have h2 : ru md * (B / 8 + 1 / 10 ^ 11) ≤ 1 / 2 ^ 52 := by
    have := mul_le_mul hu2 (show B / 8 + 1 / 10 ^ 11 ≤ 1 by linarith) (by positivity) (by positivity)
    linarith
  have c52 : (1 : ℝ) / 2 ^ 52 ≤ 1 / 10 ^ 12 := by norm_num
  have h3 : |binary64.val c + binary64.val (binary64.hmul md x p)| ≤ C + (B / 8 + 1 / 10 ^ 10) := by
    refine abs_add_le' hC (le_trans (abs_near e1' hxp) ?_)
    linarith
  obtain ⟨f2, e2⟩ := st_add md hc f1 h3 (by have : (2 : ℝ) ≤ 2 ^ 100 := by norm_num
                                            linarith)
  refine ⟨f2, ?_⟩
  have h4 : |binary64.val x * binary64.val p - binary64.val x * P| ≤ 1 / 8 * (ru md * ε) := by
    rw [← mul_sub]; exact abs_mul_le hX hP
  have e : binary64.val (binary64.hadd md c (binary64.hmul md x p)) - (binary64.val c + binary64.val x * P) =
    (binary64.val (binary64.hadd md c (binary64.hmul md x p)) - (binary64.val c + binary64.val (binary64.hmul md x p))) +
    (binary64.val (binary64.hmul md x p) - binary64.val x * binary64.val p) + (binary64.val x * binary64.val p - binary64.val x * P) := by ring
  rw [e]
  refine le_trans (abs_add_le' (abs_add_le' e2 e1') h4) ?_
  have e3 : ru md * (C + (B / 8 + 1 / 10 ^ 10) + 1 / 2 ^ 140) + ru md * (B / 8 + 1 / 10 ^ 11) + 1 / 8 * (ru md * ε) =
    ru md * (C + (B / 8 + 1 / 10 ^ 10) + 1 / 2 ^ 140 + (B / 8 + 1 / 10 ^ 11) + 1 / 8 * ε) := by ring
  rw [e3]
  exact mul_le_mul_of_nonneg_left (by linarith) hu.le

/-- `2 x, 1/3 …`: the coefficients of the series -/
theorem m1_coef : |binary64.val 0x3FC5555555555555 - 1 / 6| ≤ 1 / 2 ^ 56 ∧ |binary64.val 0x3FA5555555555555 - 1 / 24| ≤ 1 / 2 ^ 58 ∧
    |binary64.val 0x3F81111111111111 - 1 / 120| ≤ 1 / 2 ^ 60 ∧ |binary64.val 0x3F56C16C16C16C17 - 1 / 720| ≤ 1 / 2 ^ 60 ∧
    |binary64.val 0x3F2A01A01A01A01A - 1 / 5040| ≤ 1 / 2 ^ 60 ∧ |binary64.val 0x3EFA01A01A01A01A - 1 / 40320| ≤ 1 / 2 ^ 60 := by
  refine ⟨?_, ?_, ?_, ?_, ?_, ?_⟩
  · rw [lit64 false 0x15555555555555 55 (by decide +kernel) (by decide +kernel) (by decide +kernel) (by decide +kernel)]; norm_num [sg, abs_le]
  · rw [lit64 false 0x15555555555555 57 (by decide +kernel) (by decide +kernel) (by decide +kernel) (by decide +kernel)]; norm_num [sg, abs_le]
  · rw [lit64 false 0x11111111111111 59 (by decide +kernel) (by decide +kernel) (by decide +kernel) (by decide +kernel)]; norm_num [sg, abs_le]
  · rw [lit64 false 0x16C16C16C16C17 62 (by decide +kernel) (by decide +kernel) (by decide +kernel) (by decide +kernel)]; norm_num [sg, abs_le]
  · rw [lit64 false 0x1A01A01A01A01A 65 (by decide +kernel) (by decide +kernel) (by decide +kernel) (by decide +kernel)]; norm_num [sg, abs_le]
  · rw [lit64 false 0x1A01A01A01A01A 68 (by decide +kernel) (by decide +kernel) (by decide +kernel) (by decide +kernel)]; norm_num [sg, abs_le]

theorem val_half64 : binary64.val 0x3FE0000000000000 = 1 / 2 := by
  rw [lit64 false (2 ^ 52) 53 (by decide +kernel) (by decide +kernel) (by decide +kernel) (by decide +kernel)]
  norm_num [sg]

/-- the inner polynomial of the series -/
noncomputable def m1P (X : ℝ) : ℝ := 1 / 2 + X * (1 / 6 + X * (1 / 24 + X * (1 / 120 + X * (1 / 720 + X * (1 / 5040 + X * (1 / 40320))))))

theorem m1_inner (md : Mode) {x : ℕ} (hx : binary64.Finite x) (hX : |binary64.val x| ≤ 1 / 8) :
    ∃ p, CC.expm1Series md x = binary64.hadd md x (binary64.hmul md (binary64.hmul md x x) p) ∧ binary64.Finite p ∧ |binary64.val p - m1P (binary64.val x)| ≤ ru md * (72 / 100) ∧
      |m1P (binary64.val x)| ≤ 53 / 100 := by
  obtain ⟨c1, c2, c3, c4, c5, c6⟩ := m1_coef
  have hu := ru_pos md
  have hu3 := ru_ge md
  generalize hX' : binary64.val x = X at *
  have fin : ∀ c : ℕ, c ∈ [0x3FE0000000000000, 0x3FC5555555555555, 0x3FA5555555555555, 0x3F81111111111111, 0x3F56C16C16C16C17, 0x3F2A01A01A01A01A, 0x3EFA01A01A01A01A] → binary64.Finite c := by decide +kernel
  -- each step against the exact coefficients
  have step : ∀ {c p : ℕ} {P ε B C κ δ : ℝ}, binary64.Finite c → binary64.Finite p → |binary64.val p - P| ≤ ru md * ε → |P| ≤ B → B ≤ 1 → |binary64.val c - κ| ≤ δ → |κ| ≤ C → C ≤ 9 / 10 → δ ≤ 1 / 2 ^ 56 → ε ≤ 2 →
      binary64.Finite (binary64.hadd md c (binary64.hmul md x p)) ∧ |binary64.val (binary64.hadd md c (binary64.hmul md x p)) - (κ + X * P)| ≤ ru md * (ε / 8 + B / 4 + C + 126 / 1000) ∧
        |κ + X * P| ≤ C + B / 8 := by
    intro c p P ε B C κ δ fc fp hP hB hB1 hδ hκ hC hδ1 hε
    have h56 : (1 : ℝ) / 2 ^ 56 ≤ 1 / 10 ^ 10 := by norm_num
    have hc : |binary64.val c| ≤ C + 1 / 10 ^ 10 := le_trans (abs_near hδ hκ) (by linarith)
    obtain ⟨f, e⟩ := horner64 md hx fc fp (by rw [hX']; exact hX) hP hB hc hB1 (by linarith) hε
    rw [hX'] at e
    refine ⟨f, ?_, ?_⟩
    · have e1 : |binary64.val c + X * P - (κ + X * P)| ≤ 1 / 2 ^ 53 * (125 / 1000) := by
        rw [add_sub_add_right_eq_sub]; refine le_trans hδ (le_trans hδ1 (by norm_num))
      have e2 : (1 : ℝ) / 2 ^ 53 * (125 / 1000) ≤ ru md * (125 / 1000) := mul_le_mul_of_nonneg_right hu3 (by norm_num)
      refine le_trans (abs_tri e e1) ?_
      have e3 : ru md * (ε / 8 + B / 4 + (C + 1 / 10 ^ 10) + 1 / 10 ^ 9) + ru md * (125 / 1000) = ru md * (ε / 8 + B / 4 + (C + 1 / 10 ^ 10) + 1 / 10 ^ 9 + 125 / 1000) := by ring
      refine le_trans (add_le_add le_rfl e2) ?_
      rw [e3]
      exact mul_le_mul_of_nonneg_left (by linarith) hu.le
    · refine abs_add_le' hκ ?_
      have := abs_mul_le hX hB
      linarith
  have z0 : |binary64.val 0x3EFA01A01A01A01A - 1 / 40320| ≤ ru md * (1 / 100) := by
    refine le_trans c6 (le_trans ?_ (mul_le_mul_of_nonneg_right hu3 (by norm_num))); norm_num
  obtain ⟨f1, e1, b1⟩ := step (fin 0x3F2A01A01A01A01A (by decide)) (fin 0x3EFA01A01A01A01A (by decide)) z0 (show |(1 / 40320 : ℝ)| ≤ 1 / 40320 by rw [abs_of_pos] <;> norm_num) (by norm_num) c5
    (show |(1 / 5040 : ℝ)| ≤ 1 / 5040 by rw [abs_of_pos] <;> norm_num) (by norm_num) (by norm_num) (by norm_num)
  obtain ⟨f2, e2, b2⟩ := step (fin 0x3F56C16C16C16C17 (by decide)) f1 e1 b1 (by norm_num) c4
    (show |(1 / 720 : ℝ)| ≤ 1 / 720 by rw [abs_of_pos] <;> norm_num) (by norm_num) (by norm_num) (by norm_num)
  obtain ⟨f3, e3, b3⟩ := step (fin 0x3F81111111111111 (by decide)) f2 e2 b2 (by norm_num) c3
    (show |(1 / 120 : ℝ)| ≤ 1 / 120 by rw [abs_of_pos] <;> norm_num) (by norm_num) (by norm_num) (by norm_num)
  obtain ⟨f4, e4, b4⟩ := step (fin 0x3FA5555555555555 (by decide)) f3 e3 b3 (by norm_num) c2
    (show |(1 / 24 : ℝ)| ≤ 1 / 24 by rw [abs_of_pos] <;> norm_num) (by norm_num) (by norm_num) (by norm_num)
  obtain ⟨f5, e5, b5⟩ := step (fin 0x3FC5555555555555 (by decide)) f4 e4 b4 (by norm_num) c1
    (show |(1 / 6 : ℝ)| ≤ 1 / 6 by rw [abs_of_pos] <;> norm_num) (by norm_num) (by norm_num) (by norm_num)
  obtain ⟨f6, e6, b6⟩ := step (κ := 1 / 2) (δ := 0) (fin 0x3FE0000000000000 (by decide)) f5 e5 b5 (by norm_num) (by rw [val_half64, sub_self, abs_zero])
    (show |(1 / 2 : ℝ)| ≤ 1 / 2 by rw [abs_of_pos] <;> norm_num) (by norm_num) (by norm_num) (by norm_num)
  refine ⟨_, rfl, f6, le_trans e6 (mul_le_mul_of_nonneg_left (by norm_num) hu.le), le_trans b6 (by norm_num)⟩

/-- rounding errors of the series -/
theorem m1_round (md : Mode) {x : ℕ} (hx : binary64.Finite x) (hX : |binary64.val x| ≤ 1 / 8) :
    binary64.Finite (CC.expm1Series md x) ∧
      |binary64.val (CC.expm1Series md x) - (binary64.val x + binary64.val x ^ 2 * m1P (binary64.val x))| ≤
        ru md * (|binary64.val x| * (1 + 24 / 10 * |binary64.val x|)) + 4 * eta := by
  obtain ⟨p, hp, fp, ep, bp⟩ := m1_inner md hx hX
  rw [hp]
  have hu := ru_pos md
  have hu2 := ru_le md
  have hη := eta_pos
  have hη2 := eta_le
  have c52 : (1 : ℝ) / 2 ^ 52 ≤ 1 / 10 ^ 12 := by norm_num
  have c200 : (1 : ℝ) / 2 ^ 200 ≤ 1 / 10 ^ 12 := by norm_num
  have big : (2 : ℝ) ≤ 2 ^ 200 := by norm_num
  have hx0 := abs_nonneg (binary64.val x)
  have hxx : |binary64.val x * binary64.val x| = |binary64.val x| ^ 2 := by rw [abs_mul, sq]
  have hsq : |binary64.val x| ^ 2 ≤ 1 / 8 * |binary64.val x| := by rw [sq]; exact mul_le_mul_of_nonneg_right hX hx0
  have hsq0 : 0 ≤ |binary64.val x| ^ 2 := by positivity
  obtain ⟨f1, e1⟩ := err64 (binary64.hmul_spec md hx hx) (by rw [hxx]; linarith)
  rw [hxx] at e1
  generalize binary64.hmul md x x = x2 at *
  have hu1 : ru md ≤ 1 / 10 ^ 12 := le_trans hu2 c52
  have hup : ru md * (72 / 100) ≤ 1 / 10 ^ 12 := by linarith
  have hpb : |binary64.val p| ≤ 54 / 100 := le_trans (abs_near ep bp) (by linarith)
  have hus : ru md * |binary64.val x| ^ 2 ≤ 1 / 10 ^ 12 * |binary64.val x| ^ 2 := mul_le_mul_of_nonneg_right hu1 hsq0
  have hx2b : |binary64.val x2| ≤ 101 / 100 * |binary64.val x| ^ 2 + eta := by
    have := abs_near e1 hxx.le
    linarith
  have hprod : |binary64.val x2 * binary64.val p| ≤ (101 / 100 * |binary64.val x| ^ 2 + eta) * (54 / 100) := abs_mul_le hx2b hpb
  obtain ⟨f2, e2⟩ := err64 (binary64.hmul_spec md f1 fp) (by linarith)
  generalize binary64.hmul md x2 p = t at *
  have e2' : |binary64.val t - binary64.val x2 * binary64.val p| ≤ ru md * ((101 / 100 * |binary64.val x| ^ 2 + eta) * (54 / 100)) + eta := by
    have := mul_le_mul_of_nonneg_left hprod hu.le
    linarith
  -- against the exact polynomial
  have e3 : |binary64.val x2 * binary64.val p - binary64.val x ^ 2 * m1P (binary64.val x)| ≤ (ru md * |binary64.val x| ^ 2 + eta) * (54 / 100) + |binary64.val x| ^ 2 * (ru md * (72 / 100)) := by
    have : binary64.val x2 * binary64.val p - binary64.val x ^ 2 * m1P (binary64.val x) =
      (binary64.val x2 - binary64.val x * binary64.val x) * binary64.val p + binary64.val x ^ 2 * (binary64.val p - m1P (binary64.val x)) := by ring
    rw [this]
    refine abs_add_le' (abs_mul_le e1 hpb) (abs_mul_le ?_ ep)
    rw [abs_pow]
  have huη : ru md * eta ≤ 1 / 10 ^ 12 * eta := mul_le_mul_of_nonneg_right hu1 hη.le
  have e4 : |binary64.val t - binary64.val x ^ 2 * m1P (binary64.val x)| ≤ ru md * |binary64.val x| ^ 2 * (181 / 100) + 16 / 10 * eta := by
    refine le_trans (abs_tri e2' e3) ?_
    have : 0 ≤ ru md * |binary64.val x| ^ 2 := by positivity
    linarith
  have hpp : |binary64.val x ^ 2 * m1P (binary64.val x)| ≤ |binary64.val x| ^ 2 * (53 / 100) := by
    refine abs_mul_le ?_ bp; rw [abs_pow]
  have ht : |binary64.val t| ≤ |binary64.val x| ^ 2 * (54 / 100) + 16 / 10 * eta := by
    refine le_trans (abs_near e4 hpp) ?_
    linarith
  have hsum : |binary64.val x + binary64.val t| ≤ |binary64.val x| + (|binary64.val x| ^ 2 * (54 / 100) + 16 / 10 * eta) := abs_add_le' le_rfl ht
  obtain ⟨f3, e5⟩ := err64 (binary64.hadd_spec md hx f2) (by linarith)
  refine ⟨f3, ?_⟩
  have e6 := mul_le_mul_of_nonneg_left hsum hu.le
  have e7 : binary64.val (binary64.hadd md x t) - (binary64.val x + binary64.val x ^ 2 * m1P (binary64.val x)) =
    (binary64.val (binary64.hadd md x t) - (binary64.val x + binary64.val t)) + (binary64.val t - binary64.val x ^ 2 * m1P (binary64.val x)) := by ring
  rw [e7]
  refine le_trans (abs_add_le' e5 e4) ?_
  have e8 : ru md * (|binary64.val x| * (1 + 24 / 10 * |binary64.val x|)) = ru md * |binary64.val x| + 24 / 10 * (ru md * |binary64.val x| ^ 2) := by ring
  have e9 : ru md * (|binary64.val x| + (|binary64.val x| ^ 2 * (54 / 100) + 16 / 10 * eta)) = ru md * |binary64.val x| + 54 / 100 * (ru md * |binary64.val x| ^ 2) + 16 / 10 * (ru md * eta) := by ring
  rw [e8]
  rw [e9] at e6
  have : 0 ≤ ru md * |binary64.val x| ^ 2 := by positivity
  linarith

/-- truncation error of the series -/
theorem m1_taylor {X : ℝ} (h : |X| ≤ 1) : |X + X ^ 2 * m1P X - (exp X - 1)| ≤ |X| ^ 9 * (10 / 3265920) := by
  have h1 := Real.exp_bound h (n := 9) (by norm_num)
  have e : X + X ^ 2 * m1P X - (exp X - 1) = -(exp X - ∑ m ∈ Finset.range 9, X ^ m / (m.factorial : ℝ)) := by
    simp only [Finset.sum_range_succ, Finset.sum_range_zero, Nat.factorial, m1P]
    push_cast
    ring
  rw [e, abs_neg]
  refine le_trans h1 (le_of_eq ?_)
  norm_num [Nat.factorial]

/-- the series: total error -/
theorem m1_series (md : Mode) {x : ℕ} (hx : binary64.Finite x) (hX : |binary64.val x| ≤ 1 / 8) :
    binary64.Finite (CC.expm1Series md x) ∧
      |binary64.val (CC.expm1Series md x) - (exp (binary64.val x) - 1)| ≤
        ru md * (|binary64.val x| * (1 + 24 / 10 * |binary64.val x|)) + |binary64.val x| ^ 9 * (10 / 3265920) + 4 * eta := by
  obtain ⟨f, e⟩ := m1_round md hx hX
  refine ⟨f, le_trans (abs_tri e (m1_taylor (by linarith))) (by linarith)⟩

end Verif
