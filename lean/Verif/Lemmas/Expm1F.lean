import Verif.Lemmas.ExpF2

/-!
# `expm1` for floats: the series
-/

namespace Verif
open Fmt Real

theorem two_le_100 : (2 : ℝ) ≤ 2 ^ 100 := by norm_num

theorem stf_err {m : Mode} {zs : Bool} {v : ℝ} {b : ℕ} (R : binary32.RoundsTo m zs v b) {B : ℝ} (hB : |v| ≤ B) (hB2 : B ≤ 2 ^ 100) :
    binary32.Finite b ∧ |binary32.val b - v| ≤ ruf m * (B + 1 / 2 ^ 70) := by
  obtain ⟨h1, h2⟩ := err32 R (le_trans hB hB2)
  refine ⟨h1, le_trans h2 ?_⟩
  have e1 := etaf_le
  have e2 : (1 : ℝ) / 2 ^ 100 ≤ 1 / 2 ^ 24 * (1 / 2 ^ 70) := by norm_num
  have e3 : 1 / 2 ^ 24 * (1 / 2 ^ 70) ≤ ruf m * (1 / 2 ^ 70) := mul_le_mul_of_nonneg_right (ruf_ge m) (by positivity)
  have e4 := mul_le_mul_of_nonneg_left hB (ruf_pos m).le
  rw [mul_add]; linarith

theorem stf_mul (m : Mode) {x y : ℕ} (hx : binary32.Finite x) (hy : binary32.Finite y) {B : ℝ} (hB : |binary32.val x * binary32.val y| ≤ B) (hB2 : B ≤ 2 ^ 100) :
    binary32.Finite (binary32.hmul m x y) ∧ |binary32.val (binary32.hmul m x y) - binary32.val x * binary32.val y| ≤ ruf m * (B + 1 / 2 ^ 70) :=
  stf_err (binary32.hmul_spec m hx hy) hB hB2
theorem stf_add (m : Mode) {x y : ℕ} (hx : binary32.Finite x) (hy : binary32.Finite y) {B : ℝ} (hB : |binary32.val x + binary32.val y| ≤ B) (hB2 : B ≤ 2 ^ 100) :
    binary32.Finite (binary32.hadd m x y) ∧ |binary32.val (binary32.hadd m x y) - (binary32.val x + binary32.val y)| ≤ ruf m * (B + 1 / 2 ^ 70) :=
  stf_err (binary32.hadd_spec m hx hy) hB hB2

/-- one step `c + x * p` of Horner's rule -/
theorem horner32 (md : Mode) {x c p : ℕ} (hx : binary32.Finite x) (hc : binary32.Finite c) (hp : binary32.Finite p) {P ε B C : ℝ}
    (hX : |binary32.val x| ≤ 1 / 8) (hP : |binary32.val p - P| ≤ ruf md * ε) (hB : |P| ≤ B) (hC : |binary32.val c| ≤ C) (hB1 : B ≤ 1) (hC1 : C ≤ 1) (hε : ε ≤ 2) :
    binary32.Finite (binary32.hadd md c (binary32.hmul md x p)) ∧
      |binary32.val (binary32.hadd md c (binary32.hmul md x p)) - (binary32.val c + binary32.val x * P)| ≤ ruf md * (ε / 8 + B / 4 + C + 1 / 10 ^ 3) := by
  have hu := ruf_pos md
  have hu2 := ruf_le md
  have hB0 : 0 ≤ B := le_trans (abs_nonneg _) hB
  have hC0 : 0 ≤ C := le_trans (abs_nonneg _) hC
  have hε0 : 0 ≤ ruf md * ε := le_trans (abs_nonneg _) hP
  have huε : ruf md * ε ≤ 1 / 2 ^ 23 * 2 := by
    have h1 : ruf md * ε ≤ ruf md * 2 := mul_le_mul_of_nonneg_left hε hu.le
    linarith
  have hp2 : |binary32.val p| ≤ B + 1 / 2 ^ 22 := by
    refine le_trans (abs_near hP hB) ?_
    have : (1 : ℝ) / 2 ^ 23 * 2 = 1 / 2 ^ 22 := by norm_num
    linarith
  have hxp : |binary32.val x * binary32.val p| ≤ 1 / 8 * (B + 1 / 2 ^ 22) := abs_mul_le hX hp2
  have c51 : (1 : ℝ) / 2 ^ 22 ≤ 1 / 10 ^ 6 := by norm_num
  obtain ⟨f1, e1⟩ := stf_mul md hx hp hxp (le_trans (by linarith) two_le_100)
  have c140 : (1 : ℝ) / 2 ^ 70 ≤ 1 / 10 ^ 6 := by norm_num
  have e1' : |binary32.val (binary32.hmul md x p) - binary32.val x * binary32.val p| ≤ ruf md * (B / 8 + 1 / 10 ^ 5) :=
    le_trans e1 (mul_le_mul_of_nonneg_left (by linarith) hu.le)
  have h2 : ruf md * (B / 8 + 1 / 10 ^ 5) ≤ 1 / 2 ^ 23 := by
    have := mul_le_mul hu2 (show B / 8 + 1 / 10 ^ 5 ≤ 1 by linarith) (by positivity) (by positivity)
    linarith
  have c52 : (1 : ℝ) / 2 ^ 23 ≤ 1 / 10 ^ 6 := by norm_num
  have h3 : |binary32.val c + binary32.val (binary32.hmul md x p)| ≤ C + (B / 8 + 1 / 10 ^ 4) := by
    refine abs_add_le' hC (le_trans (abs_near e1' hxp) ?_)
    linarith
  obtain ⟨f2, e2⟩ := stf_add md hc f1 h3 (le_trans (by linarith) two_le_100)
  refine ⟨f2, ?_⟩
  have h4 : |binary32.val x * binary32.val p - binary32.val x * P| ≤ 1 / 8 * (ruf md * ε) := by
    rw [← mul_sub]; exact abs_mul_le hX hP
  have e : binary32.val (binary32.hadd md c (binary32.hmul md x p)) - (binary32.val c + binary32.val x * P) =
    (binary32.val (binary32.hadd md c (binary32.hmul md x p)) - (binary32.val c + binary32.val (binary32.hmul md x p))) +
    (binary32.val (binary32.hmul md x p) - binary32.val x * binary32.val p) + (binary32.val x * binary32.val p - binary32.val x * P) := by ring
  rw [e]
  refine le_trans (abs_add_le' (abs_add_le' e2 e1') h4) ?_
  have e3 : ruf md * (C + (B / 8 + 1 / 10 ^ 4) + 1 / 2 ^ 70) + ruf md * (B / 8 + 1 / 10 ^ 5) + 1 / 8 * (ruf md * ε) =
    ruf md * (C + (B / 8 + 1 / 10 ^ 4) + 1 / 2 ^ 70 + (B / 8 + 1 / 10 ^ 5) + 1 / 8 * ε) := by ring
  rw [e3]
  exact mul_le_mul_of_nonneg_left (by linarith) hu.le

/-- the coefficients of the series -/
theorem m1f_coef : |binary32.val 0x3E2AAAAB - 1 / 6| ≤ 1 / 2 ^ 27 ∧ |binary32.val 0x3D2AAAAB - 1 / 24| ≤ 1 / 2 ^ 29 ∧
    |binary32.val 0x3C088889 - 1 / 120| ≤ 1 / 2 ^ 30 ∧ |binary32.val 0x3AB60B61 - 1 / 720| ≤ 1 / 2 ^ 33 := by
  refine ⟨?_, ?_, ?_, ?_⟩
  · rw [lit32 false 0xAAAAAB 26 (by decide +kernel) (by decide +kernel) (by decide +kernel) (by decide +kernel)]; norm_num [sg, abs_le]
  · rw [lit32 false 0xAAAAAB 28 (by decide +kernel) (by decide +kernel) (by decide +kernel) (by decide +kernel)]; norm_num [sg, abs_le]
  · rw [lit32 false 0x888889 30 (by decide +kernel) (by decide +kernel) (by decide +kernel) (by decide +kernel)]; norm_num [sg, abs_le]
  · rw [lit32 false 0xB60B61 33 (by decide +kernel) (by decide +kernel) (by decide +kernel) (by decide +kernel)]; norm_num [sg, abs_le]

theorem val_half32' : binary32.val 0x3F000000 = 1 / 2 := by
  rw [lit32 false (2 ^ 23) 24 (by decide +kernel) (by decide +kernel) (by decide +kernel) (by decide +kernel)]
  norm_num [sg]

/-- the inner polynomial of the series -/
noncomputable def m1Pf (X : ℝ) : ℝ := 1 / 2 + X * (1 / 6 + X * (1 / 24 + X * (1 / 120 + X * (1 / 720))))

theorem m1f_inner (md : Mode) {x : ℕ} (hx : binary32.Finite x) (hX : |binary32.val x| ≤ 1 / 8) :
    ∃ p, CC.expm1Seriesf md x = binary32.hadd md x (binary32.hmul md (binary32.hmul md x x) p) ∧ binary32.Finite p ∧ |binary32.val p - m1Pf (binary32.val x)| ≤ ruf md * (72 / 100) ∧
      |m1Pf (binary32.val x)| ≤ 53 / 100 := by
  obtain ⟨c1, c2, c3, c4⟩ := m1f_coef
  have hu := ruf_pos md
  have hu3 := ruf_ge md
  generalize hX' : binary32.val x = X at *
  have fin : ∀ c : ℕ, c ∈ [0x3F000000, 0x3E2AAAAB, 0x3D2AAAAB, 0x3C088889, 0x3AB60B61] → binary32.Finite c := by decide +kernel
  -- each step against the exact coefficients
  have step : ∀ {c p : ℕ} {P ε B C κ δ : ℝ}, binary32.Finite c → binary32.Finite p → |binary32.val p - P| ≤ ruf md * ε → |P| ≤ B → B ≤ 1 → |binary32.val c - κ| ≤ δ → |κ| ≤ C → C ≤ 9 / 10 → δ ≤ 1 / 2 ^ 27 → ε ≤ 2 →
      binary32.Finite (binary32.hadd md c (binary32.hmul md x p)) ∧ |binary32.val (binary32.hadd md c (binary32.hmul md x p)) - (κ + X * P)| ≤ ruf md * (ε / 8 + B / 4 + C + 127 / 1000) ∧
        |κ + X * P| ≤ C + B / 8 := by
    intro c p P ε B C κ δ fc fp hP hB hB1 hδ hκ hC hδ1 hε
    have h56 : (1 : ℝ) / 2 ^ 27 ≤ 1 / 10 ^ 4 := by norm_num
    have hc : |binary32.val c| ≤ C + 1 / 10 ^ 4 := le_trans (abs_near hδ hκ) (by linarith)
    obtain ⟨f, e⟩ := horner32 md hx fc fp (by rw [hX']; exact hX) hP hB hc hB1 (by linarith) hε
    rw [hX'] at e
    refine ⟨f, ?_, ?_⟩
    · have e1 : |binary32.val c + X * P - (κ + X * P)| ≤ 1 / 2 ^ 24 * (125 / 1000) := by
        rw [add_sub_add_right_eq_sub]; refine le_trans hδ (le_trans hδ1 (by norm_num))
      have e2 : (1 : ℝ) / 2 ^ 24 * (125 / 1000) ≤ ruf md * (125 / 1000) := mul_le_mul_of_nonneg_right hu3 (by norm_num)
      refine le_trans (abs_tri e e1) ?_
      have e3 : ruf md * (ε / 8 + B / 4 + (C + 1 / 10 ^ 4) + 1 / 10 ^ 3) + ruf md * (125 / 1000) = ruf md * (ε / 8 + B / 4 + (C + 1 / 10 ^ 4) + 1 / 10 ^ 3 + 125 / 1000) := by ring
      refine le_trans (add_le_add le_rfl e2) ?_
      rw [e3]
      exact mul_le_mul_of_nonneg_left (by linarith) hu.le
    · refine abs_add_le' hκ ?_
      have := abs_mul_le hX hB
      linarith
  have z0 : |binary32.val 0x3AB60B61 - 1 / 720| ≤ ruf md * (1 / 100) := by
    refine le_trans c4 (le_trans ?_ (mul_le_mul_of_nonneg_right hu3 (by norm_num))); norm_num
  obtain ⟨f1, e1, b1⟩ := step (fin 0x3C088889 (by decide)) (fin 0x3AB60B61 (by decide)) z0 (show |(1 / 720 : ℝ)| ≤ 1 / 720 by rw [abs_of_pos] <;> norm_num) (by norm_num) c3
    (show |(1 / 120 : ℝ)| ≤ 1 / 120 by rw [abs_of_pos] <;> norm_num) (by norm_num) (by norm_num) (by norm_num)
  obtain ⟨f2, e2, b2⟩ := step (fin 0x3D2AAAAB (by decide)) f1 e1 b1 (by norm_num) c2
    (show |(1 / 24 : ℝ)| ≤ 1 / 24 by rw [abs_of_pos] <;> norm_num) (by norm_num) (by norm_num) (by norm_num)
  obtain ⟨f3, e3, b3⟩ := step (fin 0x3E2AAAAB (by decide)) f2 e2 b2 (by norm_num) c1
    (show |(1 / 6 : ℝ)| ≤ 1 / 6 by rw [abs_of_pos] <;> norm_num) (by norm_num) (by norm_num) (by norm_num)
  obtain ⟨f6, e6, b6⟩ := step (κ := 1 / 2) (δ := 0) (fin 0x3F000000 (by decide)) f3 e3 b3 (by norm_num) (by rw [val_half32', sub_self, abs_zero])
    (show |(1 / 2 : ℝ)| ≤ 1 / 2 by rw [abs_of_pos] <;> norm_num) (by norm_num) (by norm_num) (by norm_num)
  refine ⟨_, rfl, f6, le_trans e6 (mul_le_mul_of_nonneg_left (by norm_num) hu.le), le_trans b6 (by norm_num)⟩

/-- rounding errors of the series -/
theorem m1f_round (md : Mode) {x : ℕ} (hx : binary32.Finite x) (hX : |binary32.val x| ≤ 1 / 8) :
    binary32.Finite (CC.expm1Seriesf md x) ∧
      |binary32.val (CC.expm1Seriesf md x) - (binary32.val x + binary32.val x ^ 2 * m1Pf (binary32.val x))| ≤
        ruf md * (|binary32.val x| * (1 + 24 / 10 * |binary32.val x|)) + 4 * etaf := by
  obtain ⟨p, hp, fp, ep, bp⟩ := m1f_inner md hx hX
  rw [hp]
  have hu := ruf_pos md
  have hu2 := ruf_le md
  have hη := etaf_pos
  have hη2 := etaf_le
  have c52 : (1 : ℝ) / 2 ^ 23 ≤ 1 / 10 ^ 6 := by norm_num
  have c200 : (1 : ℝ) / 2 ^ 100 ≤ 1 / 10 ^ 6 := by norm_num
  have big : (2 : ℝ) ≤ 2 ^ 100 := by norm_num
  have hx0 := abs_nonneg (binary32.val x)
  have hxx : |binary32.val x * binary32.val x| = |binary32.val x| ^ 2 := by rw [abs_mul, sq]
  have hsq : |binary32.val x| ^ 2 ≤ 1 / 8 * |binary32.val x| := by rw [sq]; exact mul_le_mul_of_nonneg_right hX hx0
  have hsq0 : 0 ≤ |binary32.val x| ^ 2 := by positivity
  obtain ⟨f1, e1⟩ := err32 (binary32.hmul_spec md hx hx) (by rw [hxx]; linarith)
  rw [hxx] at e1
  generalize binary32.hmul md x x = x2 at *
  have hu1 : ruf md ≤ 1 / 10 ^ 6 := le_trans hu2 c52
  have hup : ruf md * (72 / 100) ≤ 1 / 10 ^ 6 := by linarith
  have hpb : |binary32.val p| ≤ 54 / 100 := le_trans (abs_near ep bp) (by linarith)
  have hus : ruf md * |binary32.val x| ^ 2 ≤ 1 / 10 ^ 6 * |binary32.val x| ^ 2 := mul_le_mul_of_nonneg_right hu1 hsq0
  have hx2b : |binary32.val x2| ≤ 101 / 100 * |binary32.val x| ^ 2 + etaf := by
    have := abs_near e1 hxx.le
    linarith
  have hprod : |binary32.val x2 * binary32.val p| ≤ (101 / 100 * |binary32.val x| ^ 2 + etaf) * (54 / 100) := abs_mul_le hx2b hpb
  obtain ⟨f2, e2⟩ := err32 (binary32.hmul_spec md f1 fp) (by linarith)
  generalize binary32.hmul md x2 p = t at *
  have e2' : |binary32.val t - binary32.val x2 * binary32.val p| ≤ ruf md * ((101 / 100 * |binary32.val x| ^ 2 + etaf) * (54 / 100)) + etaf := by
    have := mul_le_mul_of_nonneg_left hprod hu.le
    linarith
  -- against the exact polynomial
  have e3 : |binary32.val x2 * binary32.val p - binary32.val x ^ 2 * m1Pf (binary32.val x)| ≤ (ruf md * |binary32.val x| ^ 2 + etaf) * (54 / 100) + |binary32.val x| ^ 2 * (ruf md * (72 / 100)) := by
    have : binary32.val x2 * binary32.val p - binary32.val x ^ 2 * m1Pf (binary32.val x) =
      (binary32.val x2 - binary32.val x * binary32.val x) * binary32.val p + binary32.val x ^ 2 * (binary32.val p - m1Pf (binary32.val x)) := by ring
    rw [this]
    refine abs_add_le' (abs_mul_le e1 hpb) (abs_mul_le ?_ ep)
    rw [abs_pow]
  have huη : ruf md * etaf ≤ 1 / 10 ^ 6 * etaf := mul_le_mul_of_nonneg_right hu1 hη.le
  have e4 : |binary32.val t - binary32.val x ^ 2 * m1Pf (binary32.val x)| ≤ ruf md * |binary32.val x| ^ 2 * (181 / 100) + 16 / 10 * etaf := by
    refine le_trans (abs_tri e2' e3) ?_
    have : 0 ≤ ruf md * |binary32.val x| ^ 2 := by positivity
    linarith
  have hpp : |binary32.val x ^ 2 * m1Pf (binary32.val x)| ≤ |binary32.val x| ^ 2 * (53 / 100) := by
    refine abs_mul_le ?_ bp; rw [abs_pow]
  have ht : |binary32.val t| ≤ |binary32.val x| ^ 2 * (54 / 100) + 16 / 10 * etaf := by
    refine le_trans (abs_near e4 hpp) ?_
    linarith
  have hsum : |binary32.val x + binary32.val t| ≤ |binary32.val x| + (|binary32.val x| ^ 2 * (54 / 100) + 16 / 10 * etaf) := abs_add_le' le_rfl ht
  obtain ⟨f3, e5⟩ := err32 (binary32.hadd_spec md hx f2) (by linarith)
  refine ⟨f3, ?_⟩
  have e6 := mul_le_mul_of_nonneg_left hsum hu.le
  have e7 : binary32.val (binary32.hadd md x t) - (binary32.val x + binary32.val x ^ 2 * m1Pf (binary32.val x)) =
    (binary32.val (binary32.hadd md x t) - (binary32.val x + binary32.val t)) + (binary32.val t - binary32.val x ^ 2 * m1Pf (binary32.val x)) := by ring
  rw [e7]
  refine le_trans (abs_add_le' e5 e4) ?_
  have e8 : ruf md * (|binary32.val x| * (1 + 24 / 10 * |binary32.val x|)) = ruf md * |binary32.val x| + 24 / 10 * (ruf md * |binary32.val x| ^ 2) := by ring
  have e9 : ruf md * (|binary32.val x| + (|binary32.val x| ^ 2 * (54 / 100) + 16 / 10 * etaf)) = ruf md * |binary32.val x| + 54 / 100 * (ruf md * |binary32.val x| ^ 2) + 16 / 10 * (ruf md * etaf) := by ring
  rw [e8]
  rw [e9] at e6
  have : 0 ≤ ruf md * |binary32.val x| ^ 2 := by positivity
  linarith

/-- truncation error of the series -/
theorem m1f_taylor {X : ℝ} (h : |X| ≤ 1) : |X + X ^ 2 * m1Pf X - (exp X - 1)| ≤ |X| ^ 7 * (8 / 35280) := by
  have h1 := Real.exp_bound h (n := 7) (by norm_num)
  have e : X + X ^ 2 * m1Pf X - (exp X - 1) = -(exp X - ∑ m ∈ Finset.range 7, X ^ m / (m.factorial : ℝ)) := by
    simp only [Finset.sum_range_succ, Finset.sum_range_zero, Nat.factorial, m1Pf]
    push_cast
    ring
  rw [e, abs_neg]
  refine le_trans h1 (le_of_eq ?_)
  norm_num [Nat.factorial]

/-- the series: total error -/
theorem m1f_series (md : Mode) {x : ℕ} (hx : binary32.Finite x) (hX : |binary32.val x| ≤ 1 / 8) :
    binary32.Finite (CC.expm1Seriesf md x) ∧
      |binary32.val (CC.expm1Seriesf md x) - (exp (binary32.val x) - 1)| ≤
        ruf md * (|binary32.val x| * (1 + 24 / 10 * |binary32.val x|)) + |binary32.val x| ^ 7 * (8 / 35280) + 4 * etaf := by
  obtain ⟨f, e⟩ := m1f_round md hx hX
  refine ⟨f, le_trans (abs_tri e (m1f_taylor (by linarith))) (by linarith)⟩

end Verif
