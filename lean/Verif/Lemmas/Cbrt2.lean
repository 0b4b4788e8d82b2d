import Verif.Lemmas.Cbrt
import Verif.Props.Log

/-!
# The starting value of the cube root, for double and float
-/

namespace Verif
open Fmt Real

theorem log_range {v : ℝ} {a b : ℤ} (h : (2 : ℝ) ^ a ≤ v) (h2 : v ≤ 2 ^ b) : (a : ℝ) * log 2 ≤ log v ∧ log v ≤ b * log 2 := by
  have hp : 0 < v := lt_of_lt_of_le (by positivity) h
  have a1 := Real.log_le_log (by positivity) h
  have b1 := Real.log_le_log hp h2
  rw [Real.log_zpow] at a1 b1
  exact ⟨a1, b1⟩

theorem val_range64 {x : ℕ} (hx : binary64.Finite x) (h : 0 < binary64.val x) : (2 : ℝ) ^ (-1074 : ℤ) ≤ binary64.val x ∧ binary64.val x ≤ 2 ^ (1024 : ℤ) := by
  have h1 := binary64.abs_val_lt_ce x
  have h2 := binary64.ce_le_max hx
  have h5 := binary64.ce_ge x
  have h6 := (binary64.mult_ce x).ge h.ne'
  rw [abs_of_pos h] at h1 h6
  have e1 : binary64.bias = 1023 := by decide
  have e2 : binary64.F = 52 := by decide
  unfold emin at h5
  rw [e1, e2] at h2 h5
  rw [e2] at h1
  push_cast at h2 h5
  exact ⟨(two_zpow_le (by omega)).trans h6, h1.le.trans (two_zpow_le (by push_cast; omega))⟩

theorem val_range32 {x : ℕ} (hx : binary32.Finite x) (h : 0 < binary32.val x) : (2 : ℝ) ^ (-149 : ℤ) ≤ binary32.val x ∧ binary32.val x ≤ 2 ^ (128 : ℤ) := by
  have h1 := binary32.abs_val_lt_ce x
  have h2 := binary32.ce_le_max hx
  have h5 := binary32.ce_ge x
  have h6 := (binary32.mult_ce x).ge h.ne'
  rw [abs_of_pos h] at h1 h6
  have e1 : binary32.bias = 127 := by decide
  have e2 : binary32.F = 23 := by decide
  unfold emin at h5
  rw [e1, e2] at h2 h5
  rw [e2] at h1
  push_cast at h2 h5
  exact ⟨(two_zpow_le (by omega)).trans h6, h1.le.trans (two_zpow_le (by push_cast; omega))⟩

theorem exp_range {l : ℝ} {a b : ℤ} (h : (a : ℝ) * log 2 ≤ l) (h2 : l ≤ b * log 2) : (2 : ℝ) ^ a ≤ exp l ∧ exp l ≤ 2 ^ b := by
  rw [← exp_int_log, ← exp_int_log]
  exact ⟨Real.exp_le_exp.2 h, Real.exp_le_exp.2 h2⟩

theorem fu64 (md : Mode) : fu binary64 md = ru md := by
  have e2 : binary64.F = 52 := by decide
  unfold fu ru
  rw [e2, zpow_neg, zpow_natCast]
  split_ifs <;> norm_num
theorem fu32 (md : Mode) : fu binary32 md = ruf md := by
  have e2 : binary32.F = 23 := by decide
  unfold fu ruf
  rw [e2, zpow_neg, zpow_natCast]
  split_ifs <;> norm_num

theorem three64 : binary64.Finite 0x4008000000000000 ∧ binary64.val 0x4008000000000000 = 3 := by
  refine ⟨by decide +kernel, ?_⟩
  rw [lit64 false (3 * 2 ^ 51) 51 (by decide +kernel) (by decide +kernel) (by decide +kernel) (by decide +kernel)]
  norm_num [sg]
theorem three32 : binary32.Finite 0x40400000 ∧ binary32.val 0x40400000 = 3 := by
  refine ⟨by decide +kernel, ?_⟩
  rw [lit32 false (3 * 2 ^ 22) 22 (by decide +kernel) (by decide +kernel) (by decide +kernel) (by decide +kernel)]
  norm_num [sg]
theorem two64 : binary64.Finite 0x4000000000000000 ∧ binary64.val 0x4000000000000000 = 2 := ⟨by decide +kernel, val_two64⟩
theorem two32 : binary32.Finite 0x40000000 ∧ binary32.val 0x40000000 = 2 := by
  refine ⟨by decide +kernel, ?_⟩
  rw [lit32 false (2 ^ 23) 22 (by decide +kernel) (by decide +kernel) (by decide +kernel) (by decide +kernel)]
  norm_num [sg]

/-- the real computation: `L ≈ l`, `q ≈ L / 3`, `y ≈ exp q` -/
theorem start_aux {u η κ l L q y M A K D E : ℝ} (hu : 0 < u) (hu1 : u ≤ 1 / 2 ^ 23) (hl : |l| ≤ M) (hL : |L - l| ≤ u * (A * |l|)) (hA : 0 ≤ A) (hA2 : A ≤ 2) (hq : |q - L / 3| ≤ u * |L / 3| + η)
    (hη : η ≤ u / 100) (hM : M ≤ 1000)
    (hD : (A + 1 + 1 / 1000) * M / 3 + 1 / 100 ≤ D) (hD2 : D ≤ 700) (hy : |y - exp q| ≤ K * exp q + κ) (hK : K ≤ u * (13 / 10)) (hκ : κ ≤ u / 100 * exp (l / 3)) (hE : D + D * (D * u) + 14 / 10 ≤ E) (hE2 : D * u ≤ 1 / 1000) :
    |q - l / 3| ≤ u * D ∧ |y - exp (l / 3)| ≤ u * E * exp (l / 3) := by
  have hM0 : 0 ≤ M := (abs_nonneg _).trans hl
  have hLa : |L| ≤ (1 + u * A) * |l| := by
    have := abs_near hL le_rfl
    linarith
  have h1 : |L / 3 - l / 3| ≤ u * (A * M) / 3 := by
    rw [← sub_div, abs_div, abs_of_pos (show (0 : ℝ) < 3 by norm_num)]
    have : u * (A * |l|) ≤ u * (A * M) := mul_le_mul_of_nonneg_left (mul_le_mul_of_nonneg_left hl hA) hu.le
    linarith
  have hu3 : u ≤ 1 / 4000 := hu1.trans (by norm_num)
  have h2 : |L / 3| ≤ (1 + 1 / 1000) * M / 3 := by
    rw [abs_div, abs_of_pos (show (0 : ℝ) < 3 by norm_num)]
    have h3 : u * A ≤ 1 / 4000 * 2 := mul_le_mul hu3 hA2 hA (by norm_num)
    have : (1 + u * A) * |l| ≤ (1 + 1 / 1000) * M := mul_le_mul (by linarith) hl (abs_nonneg _) (by norm_num)
    linarith
  have h3 : u * |L / 3| ≤ u * ((1 + 1 / 1000) * M / 3) := mul_le_mul_of_nonneg_left h2 hu.le
  have d0 : |q - l / 3| ≤ u * D := by
    have := abs_tri hq h1
    have h5 := mul_le_mul_of_nonneg_left hD hu.le
    linarith
  refine ⟨d0, ?_⟩
  obtain ⟨d, hd⟩ : ∃ d, q = l / 3 + d := ⟨q - l / 3, by ring⟩
  rw [hd, show l / 3 + d - l / 3 = d by ring] at d0
  rw [hd, Real.exp_add] at hy
  have c0 := Real.exp_pos (l / 3)
  have hD0 : 0 ≤ D := le_trans (by positivity) hD
  have hd1 : |d| ≤ 1 := by linarith
  have h6 := Real.abs_exp_sub_one_sub_id_le hd1
  have h7 : d ^ 2 ≤ (u * D) ^ 2 := by rw [← sq_abs]; exact pow_le_pow_left₀ (abs_nonneg _) d0 2
  have h8 : |exp d - 1| ≤ u * D + (u * D) ^ 2 := by
    rw [show exp d - 1 = (exp d - 1 - d) + d by ring]
    refine (abs_add_le _ _).trans ?_
    linarith
  have h9 : (u * D) ^ 2 ≤ 1 / 1000 * 1 := by
    have : u * D ≤ 1 / 1000 := by linarith
    have h0 : 0 ≤ u * D := by positivity
    nlinarith
  generalize exp (l / 3) = c at *
  have h10 : exp d ≤ 101 / 100 := by
    have := (abs_le.1 h8).2
    linarith
  have h11 : K * (c * exp d) ≤ u * (13 / 10) * (c * (101 / 100)) :=
    mul_le_mul hK (mul_le_mul_of_nonneg_left h10 c0.le) (by positivity) (by positivity)
  have h12 : |c * exp d - c| ≤ (u * D + (u * D) ^ 2) * c := by
    rw [show c * exp d - c = (exp d - 1) * c by ring, abs_mul, abs_of_pos c0]
    exact mul_le_mul_of_nonneg_right h8 c0.le
  have h13 := abs_tri hy h12
  have h14 := mul_le_mul_of_nonneg_right (mul_le_mul_of_nonneg_left hE hu.le) c0.le
  have e : (u * D) ^ 2 * c = u * (D * (D * u)) * c := by ring
  have : 0 ≤ u * c := by positivity
  have : (u * D + (u * D) ^ 2) * c = u * D * c + u * (D * (D * u)) * c := by ring
  nlinarith

/-- the branch of `cbrt_impl` for a finite non-zero argument of magnitude `ax` -/
def cbrtMain (f : Fmt) (exp log : ℕ → ℕ) (two three : ℕ) (md : Mode) (ax : ℕ) : ℕ :=
  f.hdiv md (f.hadd md (f.hmul md two (exp (f.hdiv md (log ax) three))) (f.hdiv md ax (f.hmul md (exp (f.hdiv md (log ax) three)) (exp (f.hdiv md (log ax) three))))) three

theorem cbrtImpl_eq (f : Fmt) {exp log : ℕ → ℕ} {two three : ℕ} {md : Mode} {x : ℕ} (hx : f.Finite x) (h0 : f.val x ≠ 0) :
    CC.cbrtImpl f exp log two three md x = if f.sgn x then f.hneg (cbrtMain f exp log two three md (f.mag x)) else cbrtMain f exp log two three md (f.mag x) := by
  obtain ⟨a, b⟩ := f.finite_B hx
  have c : f.zeroB x = false := by
    unfold zeroB
    have : f.mag x ≠ 0 := fun hc => h0 ((f.val_eq_zero_iff x).2 hc)
    simpa using this
  unfold CC.cbrtImpl cbrtMain
  rw [FPBits.isNan_eq, FPBits.isInf_eq, FPBits.isZero_eq, FPBits.isNeg_eq f hx.valid, CC.abs_eq f hx.valid, a, b, c]
  simp

theorem cbrt_start64 (md : Mode) {ax : ℕ} (hax : binary64.Finite ax) (h : 0 < binary64.val ax) :
    binary64.Finite (CC.expDouble md (binary64.hdiv md (CC.logDouble md ax) 0x4008000000000000)) ∧
      |binary64.val (CC.expDouble md (binary64.hdiv md (CC.logDouble md ax) 0x4008000000000000)) - exp (log (binary64.val ax) / 3)| ≤ ru md * 563 * exp (log (binary64.val ax) / 3) := by
  have hu := ru_pos md
  have hu2 := ru_le md
  have hu3 := ru_ge md
  obtain ⟨fL, eL⟩ := logDoubleImpl_err md hax h
  rw [show CC.logDouble md ax = CC.logDoubleImpl md ax from
    by unfold CC.logDouble; exact (logPos64 hax h (by unfold CC.logDoubleImpl; simp)).1]
  obtain ⟨r1, r2⟩ := val_range64 hax h
  obtain ⟨l1, l2⟩ := log_range r1 r2
  obtain ⟨t1, t2⟩ := log2_lo
  generalize log (binary64.val ax) = l at *
  generalize CC.logDoubleImpl md ax = Lb at *
  obtain ⟨c1, c2⟩ := exp_range (l := l / 3) (a := -358) (b := 342) (by push_cast at l1 ⊢; linarith) (by push_cast at l2 ⊢; linarith)
  have hl : |l| ≤ 746 := by push_cast at l1 l2; rw [abs_le]; constructor <;> linarith
  have bL : |binary64.val Lb| ≤ 2 ^ 10 := by
    have : ru md * (5 / 4 * |l|) ≤ 1 / 2 ^ 52 * (5 / 4 * 746) := mul_le_mul hu2 (by linarith) (by positivity) (by norm_num)
    have := abs_near eL hl
    norm_num at *; linarith
  obtain ⟨f3, v3⟩ := three64
  obtain ⟨fq, eq⟩ := err64 (hdiv_spec binary64 md fL f3 (by rw [v3]; norm_num)) (by
    rw [v3, abs_div, abs_of_pos (show (0 : ℝ) < 3 by norm_num), div_le_iff₀ (by norm_num)]
    exact bL.trans (by norm_num))
  rw [v3] at eq
  generalize binary64.hdiv md Lb 0x4008000000000000 = q at *
  have hη : eta ≤ ru md / 100 := eta_le.trans (le_trans (by norm_num) (div_le_div_of_nonneg_right hu3 (by norm_num)))
  -- the argument of exp is moderate
  have hq : |binary64.val q - l / 3| ≤ ru md * 700 := by
    have h1 : |binary64.val Lb / 3 - l / 3| ≤ ru md * (5 / 4 * 746) / 3 := by
      rw [← sub_div, abs_div, abs_of_pos (show (0 : ℝ) < 3 by norm_num)]
      have : ru md * (5 / 4 * |l|) ≤ ru md * (5 / 4 * 746) := mul_le_mul_of_nonneg_left (by linarith) hu.le
      linarith
    have h2 : |binary64.val Lb / 3| ≤ 1024 / 3 := by
      rw [abs_div, abs_of_pos (show (0 : ℝ) < 3 by norm_num)]; norm_num at bL; linarith
    have h3 : ru md * |binary64.val Lb / 3| ≤ ru md * (1024 / 3) := mul_le_mul_of_nonneg_left h2 hu.le
    have := abs_tri eq h1
    linarith
  have hq2 : binary64.val q ≤ binary64.val 0x40862E42FEFA39EF := by
    have e : (700 : ℝ) ≤ binary64.val 0x40862E42FEFA39EF := by
      rw [lit64 false 6243314768165359 43 (by decide +kernel) (by decide +kernel) (by decide +kernel) (by decide +kernel)]
      norm_num [sg]
    have : ru md * 700 ≤ 1 / 2 ^ 52 * 700 := mul_le_mul_of_nonneg_right hu2 (by norm_num)
    have := (abs_le.1 hq).2
    have := (abs_le.1 hl).2
    norm_num at *; linarith
  obtain ⟨fy, -, ey⟩ := C62_exp_accuracy md fq hq2
  have k0 : (if md = .nearest then 1.06 / 2 ^ 53 else 1.3 / 2 ^ 52 : ℝ) ≤ ru md * (13 / 10) := by unfold ru; split_ifs <;> norm_num
  have k1 : (if md = .nearest then 0.51 else 1.01 : ℝ) * (2 : ℝ) ^ (-1074 : ℤ) ≤ ru md / 100 * exp (l / 3) := by
    have z1 : (2 : ℝ) ^ (-1074 : ℤ) ≤ 1 / 2 ^ 200 * 2 ^ (-358 : ℤ) := by
      have : (1 : ℝ) / 2 ^ 200 = 2 ^ (-200 : ℤ) := by rw [zpow_neg, one_div]; norm_cast
      rw [this, ← zpow_add₀ (by norm_num)]
      exact two_zpow_le (by norm_num)
    have z2 : (if md = .nearest then 0.51 else 1.01 : ℝ) ≤ 2 := by split_ifs <;> norm_num
    have z3 : (1 : ℝ) / 2 ^ 200 * exp (l / 3) * 2 ≤ ru md / 100 * exp (l / 3) := by
      have := mul_le_mul_of_nonneg_right (show (1 : ℝ) / 2 ^ 200 * 2 ≤ ru md / 100 from le_trans (by norm_num) (div_le_div_of_nonneg_right hu3 (by norm_num))) (Real.exp_pos (l / 3)).le
      linarith
    have z4 : (1 : ℝ) / 2 ^ 200 * 2 ^ (-358 : ℤ) ≤ 1 / 2 ^ 200 * exp (l / 3) := mul_le_mul_of_nonneg_left (by exact_mod_cast c1) (by positivity)
    have z5 := mul_le_mul z2 (z1.trans z4) (two_zpow_pos _).le (by norm_num)
    linarith
  have st := start_aux (A := 5 / 4) (M := 746) (D := 561) (E := 563) hu (hu2.trans (by norm_num)) hl eL (by norm_num) (by norm_num) eq hη (by norm_num) (by norm_num) (by norm_num) ey k0 k1
    (by have : (561 : ℝ) * (561 * ru md) ≤ 561 * (561 * (1 / 2 ^ 52)) := by linarith
        norm_num at this ⊢; linarith) (by norm_num at hu2 ⊢; linarith)
  exact ⟨fy, st.2⟩

theorem cbrt_core64 (md : Mode) {ax : ℕ} (hax : binary64.Finite ax) (h : 0 < binary64.val ax) :
    binary64.Finite (cbrtMain binary64 (CC.expDouble md) (CC.logDouble md) 0x4000000000000000 0x4008000000000000 md ax) ∧
      |binary64.val (cbrtMain binary64 (CC.expDouble md) (CC.logDouble md) 0x4000000000000000 0x4008000000000000 md ax) - exp (log (binary64.val ax) / 3)| ≤
        27 / 10 * ru md * exp (log (binary64.val ax) / 3) := by
  obtain ⟨fy, st⟩ := cbrt_start64 md hax h
  unfold cbrtMain
  have hu := ru_pos md
  have hu2 := ru_le md
  have hu3 := ru_ge md
  obtain ⟨r1, r2⟩ := val_range64 hax h
  obtain ⟨l1, l2⟩ := log_range r1 r2
  obtain ⟨t1, t2⟩ := log2_lo
  have hac : binary64.val ax = exp (log (binary64.val ax) / 3) ^ 3 := by
    rw [← Real.exp_nat_mul, show ((3 : ℕ) : ℝ) * (log (binary64.val ax) / 3) = log (binary64.val ax) by push_cast; ring, Real.exp_log h]
  generalize log (binary64.val ax) = l at *
  obtain ⟨c1, c2⟩ := exp_range (l := l / 3) (a := -358) (b := 342) (by push_cast at l1 ⊢; linarith) (by push_cast at l2 ⊢; linarith)
  generalize CC.expDouble md (binary64.hdiv md (CC.logDouble md ax) 0x4008000000000000) = y at *
  have hc := Real.exp_pos (l / 3)
  generalize exp (l / 3) = c at *
  have b5 : ru md * 563 ≤ 1 / 2 ^ 42 := by norm_num at hu2 ⊢; linarith
  have st2 : |binary64.val y - c| ≤ 1 / 2 ^ 42 * c := st.trans (mul_le_mul_of_nonneg_right b5 hc.le)
  rw [← fu64]
  rw [← fu64] at hu hu2 hu3
  have b6 : (2 : ℝ) ^ (-358 : ℤ) * 2 ^ (-358 : ℤ) ≤ c ^ 2 := by rw [pow_two]; exact mul_le_mul c1 c1 (two_zpow_pos _).le hc.le
  have b7 : c ^ 2 ≤ (2 : ℝ) ^ (342 : ℤ) * 2 ^ (342 : ℤ) := by rw [pow_two]; exact mul_le_mul c2 c2 hc.le (two_zpow_pos _).le
  rw [← zpow_add₀ (by norm_num)] at b6 b7
  have four : ∀ n : ℤ, 4 * (2 : ℝ) ^ n = 2 ^ (n + 2) := fun n => by rw [zpow_add₀ (by norm_num)]; norm_num; ring
  refine cbrt_step (lo := 2 ^ (-1000 : ℤ)) (hi := 2 ^ (1000 : ℤ)) (by
    unfold minNormal; exact two_zpow_le (by rw [show binary64.bias = 1023 from by decide]; norm_num)) big_le (two_zpow_pos _) (hu2.trans (by norm_num)) hax hc hac fy
    (st2.trans (mul_le_mul_of_nonneg_right (by norm_num) hc.le)) ?_ two64 three64 ?_ ?_ ?_ ?_
  · have h1 : (binary64.val y - c) ^ 2 ≤ (1 / 2 ^ 42 * c) ^ 2 := by rw [← sq_abs]; exact pow_le_pow_left₀ (abs_nonneg _) st2 2
    have h2 : (1 / 2 ^ 42 * c) ^ 2 = (1 / 2 ^ 42) ^ 2 * c ^ 2 := by ring
    rw [h2] at h1
    refine h1.trans (mul_le_mul_of_nonneg_right (le_trans (by norm_num) (div_le_div_of_nonneg_right hu3 (by norm_num))) (by positivity))
  · rw [four]; exact (two_zpow_le (by norm_num)).trans c1
  · have := mul_le_mul_of_nonneg_left c2 (show (0 : ℝ) ≤ 4 by norm_num)
    rw [four] at this; exact this.trans (two_zpow_le (by norm_num))
  · rw [four]; exact (two_zpow_le (by norm_num)).trans b6
  · have := mul_le_mul_of_nonneg_left b7 (show (0 : ℝ) ≤ 4 by norm_num)
    rw [four] at this; exact this.trans (two_zpow_le (by norm_num))

theorem cbrt_start32 (md : Mode) {ax : ℕ} (hax : binary32.Finite ax) (h : 0 < binary32.val ax) {M D E : ℝ} (hlM : |log (binary32.val ax)| ≤ M) (hM : M ≤ 1034 / 10)
    (hD : (13 / 8 + 1 + 1 / 1000) * M / 3 + 1 / 100 ≤ D) (hD2 : D ≤ 91) (hE : D + 15 / 10 ≤ E) (hD0 : 0 ≤ D) :
    binary32.Finite (CC.expFloat md (binary32.hdiv md (CC.logFloat md ax) 0x40400000)) ∧
      |binary32.val (CC.expFloat md (binary32.hdiv md (CC.logFloat md ax) 0x40400000)) - exp (log (binary32.val ax) / 3)| ≤ ruf md * E * exp (log (binary32.val ax) / 3) := by
  have hu := ruf_pos md
  have hu2 := ruf_le md
  have hu3 := ruf_ge md
  obtain ⟨fL, eL⟩ := logFloatImpl_err md hax h
  rw [show CC.logFloat md ax = CC.logFloatImpl md ax from
    by unfold CC.logFloat; exact (logPos32 hax h (by unfold CC.logFloatImpl; simp)).1]
  obtain ⟨r1, r2⟩ := val_range32 hax h
  obtain ⟨l1, l2⟩ := log_range r1 r2
  obtain ⟨t1, t2⟩ := log2_lo
  generalize log (binary32.val ax) = l at *
  generalize CC.logFloatImpl md ax = Lb at *
  obtain ⟨c1, c2⟩ := exp_range (l := l / 3) (a := -50) (b := 43) (by push_cast at l1 ⊢; linarith) (by push_cast at l2 ⊢; linarith)
  have hl : |l| ≤ 1034 / 10 := by push_cast at l1 l2; rw [abs_le]; constructor <;> linarith
  have bL : |binary32.val Lb| ≤ 104 := by
    have : ruf md * (13 / 8 * |l|) ≤ 1 / 2 ^ 23 * (13 / 8 * (1034 / 10)) := mul_le_mul hu2 (by linarith) (by positivity) (by norm_num)
    have := abs_near eL hl
    norm_num at *; linarith
  obtain ⟨f3, v3⟩ := three32
  obtain ⟨fq, eq⟩ := err32 (hdiv_spec binary32 md fL f3 (by rw [v3]; norm_num)) (by
    rw [v3, abs_div, abs_of_pos (show (0 : ℝ) < 3 by norm_num), div_le_iff₀ (by norm_num)]
    exact bL.trans (by norm_num))
  rw [v3] at eq
  generalize binary32.hdiv md Lb 0x40400000 = q at *
  have hη : etaf ≤ ruf md / 100 := etaf_le.trans (le_trans (by norm_num) (div_le_div_of_nonneg_right hu3 (by norm_num)))
  -- the argument of exp is moderate
  have hq : |binary32.val q - l / 3| ≤ ruf md * 100 := by
    have h1 : |binary32.val Lb / 3 - l / 3| ≤ ruf md * (13 / 8 * (1034 / 10)) / 3 := by
      rw [← sub_div, abs_div, abs_of_pos (show (0 : ℝ) < 3 by norm_num)]
      have : ruf md * (13 / 8 * |l|) ≤ ruf md * (13 / 8 * (1034 / 10)) := mul_le_mul_of_nonneg_left (by linarith) hu.le
      linarith
    have h2 : |binary32.val Lb / 3| ≤ 104 / 3 := by
      rw [abs_div, abs_of_pos (show (0 : ℝ) < 3 by norm_num)]; linarith
    have h3 : ruf md * |binary32.val Lb / 3| ≤ ruf md * (104 / 3) := mul_le_mul_of_nonneg_left h2 hu.le
    have := abs_tri eq h1
    linarith
  have hq0 : |binary32.val q| ≤ 60 := by
    have : ruf md * 100 ≤ 1 / 2 ^ 23 * 100 := mul_le_mul_of_nonneg_right hu2 (by norm_num)
    have h3 : |l / 3| ≤ 1034 / 30 := by rw [abs_div, abs_of_pos (show (0 : ℝ) < 3 by norm_num)]; linarith
    have := abs_near hq h3
    norm_num at *; linarith
  have hq2 : binary32.val q ≤ binary32.val 0x42B17217 := by
    have e : (60 : ℝ) ≤ binary32.val 0x42B17217 := by
      rw [lit32 false 11629079 17 (by decide +kernel) (by decide +kernel) (by decide +kernel) (by decide +kernel)]
      norm_num [sg]
    have := (abs_le.1 hq0).2
    linarith
  have hq1 : binary32.val 0xC2CFF1B4 ≤ binary32.val q := by
    have e : binary32.val 0xC2CFF1B4 ≤ -60 := by
      rw [lit32 true 13627828 17 (by decide +kernel) (by decide +kernel) (by decide +kernel) (by decide +kernel)]
      norm_num [sg]
    have := (abs_le.1 hq0).1
    linarith
  obtain ⟨fy, -, ey⟩ := C65_expf_accuracy_partial md fq hq1 hq2
  have k0 : (if md = .nearest then 1.02 / 2 ^ 24 else 1.1 / 2 ^ 23 : ℝ) ≤ ruf md * (13 / 10) := by unfold ruf; split_ifs <;> norm_num
  have k1 : (if md = .nearest then 1 / 2 else 1 : ℝ) * (2 : ℝ) ^ (-149 : ℤ) ≤ ruf md / 100 * exp (l / 3) := by
    have z2 : (if md = .nearest then 1 / 2 else 1 : ℝ) ≤ 1 := by split_ifs <;> norm_num
    have z1 : (2 : ℝ) ^ (-149 : ℤ) ≤ ruf md / 100 * 2 ^ (-50 : ℤ) :=
      le_trans (by norm_num) (mul_le_mul_of_nonneg_right (div_le_div_of_nonneg_right hu3 (by norm_num)) (two_zpow_pos _).le)
    have z5 := mul_le_mul z2 z1 (two_zpow_pos _).le (by norm_num)
    have z4 : ruf md / 100 * (2 : ℝ) ^ (-50 : ℤ) ≤ ruf md / 100 * exp (l / 3) := mul_le_mul_of_nonneg_left c1 (by positivity)
    linarith
  have st := start_aux (A := 13 / 8) (M := M) (D := D) (E := E) hu hu2 hlM eL (by norm_num) (by norm_num) eq hη (by linarith) hD (by linarith) ey k0 k1
    (by have h1 : D * ruf md ≤ 91 * (1 / 2 ^ 23) := mul_le_mul hD2 hu2 hu.le (by norm_num)
        have h2 : D * (D * ruf md) ≤ 91 * (91 * (1 / 2 ^ 23)) := mul_le_mul hD2 h1 (by positivity) (by norm_num)
        norm_num at h2 ⊢; linarith)
    (by have h1 : D * ruf md ≤ 91 * (1 / 2 ^ 23) := mul_le_mul hD2 hu2 hu.le (by norm_num)
        norm_num at h1 ⊢; linarith)
  exact ⟨fy, st.2⟩

theorem cbrt_core32 (md : Mode) {ax : ℕ} (hax : binary32.Finite ax) (h : 0 < binary32.val ax) :
    binary32.Finite (cbrtMain binary32 (CC.expFloat md) (CC.logFloat md) 0x40000000 0x40400000 md ax) ∧
      |binary32.val (cbrtMain binary32 (CC.expFloat md) (CC.logFloat md) 0x40000000 0x40400000 md ax) - exp (log (binary32.val ax) / 3)| ≤
        27 / 10 * ruf md * exp (log (binary32.val ax) / 3) := by
  have hl : |log (binary32.val ax)| ≤ 1034 / 10 := by
    obtain ⟨r1, r2⟩ := val_range32 hax h
    obtain ⟨l1, l2⟩ := log_range r1 r2
    obtain ⟨t1, t2⟩ := log2_lo
    push_cast at l1 l2; rw [abs_le]; constructor <;> linarith
  obtain ⟨fy, st⟩ := cbrt_start32 md hax h (D := 91) (E := 93) hl le_rfl (by norm_num) (by norm_num) (by norm_num) (by norm_num)
  unfold cbrtMain
  have hu := ruf_pos md
  have hu2 := ruf_le md
  have hu3 := ruf_ge md
  obtain ⟨r1, r2⟩ := val_range32 hax h
  obtain ⟨l1, l2⟩ := log_range r1 r2
  obtain ⟨t1, t2⟩ := log2_lo
  have hac : binary32.val ax = exp (log (binary32.val ax) / 3) ^ 3 := by
    rw [← Real.exp_nat_mul, show ((3 : ℕ) : ℝ) * (log (binary32.val ax) / 3) = log (binary32.val ax) by push_cast; ring, Real.exp_log h]
  generalize log (binary32.val ax) = l at *
  obtain ⟨c1, c2⟩ := exp_range (l := l / 3) (a := -50) (b := 43) (by push_cast at l1 ⊢; linarith) (by push_cast at l2 ⊢; linarith)
  generalize CC.expFloat md (binary32.hdiv md (CC.logFloat md ax) 0x40400000) = y at *
  have hc := Real.exp_pos (l / 3)
  generalize exp (l / 3) = c at *
  have st2 := st
  rw [← fu32]
  rw [← fu32] at hu hu2 hu3 st2
  have b6 : (2 : ℝ) ^ (-50 : ℤ) * 2 ^ (-50 : ℤ) ≤ c ^ 2 := by rw [pow_two]; exact mul_le_mul c1 c1 (two_zpow_pos _).le hc.le
  have b7 : c ^ 2 ≤ (2 : ℝ) ^ (43 : ℤ) * 2 ^ (43 : ℤ) := by rw [pow_two]; exact mul_le_mul c2 c2 hc.le (two_zpow_pos _).le
  rw [← zpow_add₀ (by norm_num)] at b6 b7
  have four : ∀ n : ℤ, 4 * (2 : ℝ) ^ n = 2 ^ (n + 2) := fun n => by rw [zpow_add₀ (by norm_num)]; norm_num; ring
  refine cbrt_step (lo := 2 ^ (-120 : ℤ)) (hi := 2 ^ (110 : ℤ)) (by
    unfold minNormal; exact two_zpow_le (by rw [show binary32.bias = 127 from by decide]; norm_num)) bigf_le (two_zpow_pos _) hu2 hax hc hac fy
    (st2.trans (mul_le_mul_of_nonneg_right (by norm_num at hu2 ⊢; linarith) hc.le)) ?_ two32 three32 ?_ ?_ ?_ ?_
  · have h1 : (binary32.val y - c) ^ 2 ≤ (fu binary32 md * 93 * c) ^ 2 := by rw [← sq_abs]; exact pow_le_pow_left₀ (abs_nonneg _) st2 2
    have h2 : (fu binary32 md * 93 * c) ^ 2 = fu binary32 md * (93 * 93 * fu binary32 md) * c ^ 2 := by ring
    rw [h2] at h1
    refine h1.trans (mul_le_mul_of_nonneg_right ?_ (by positivity))
    have h3 : 93 * 93 * fu binary32 md ≤ 1 / 500 := by norm_num at hu2 ⊢; linarith
    have := mul_le_mul_of_nonneg_left h3 hu.le
    linarith
  · rw [four]; exact (two_zpow_le (by norm_num)).trans c1
  · have := mul_le_mul_of_nonneg_left c2 (show (0 : ℝ) ≤ 4 by norm_num)
    rw [four] at this; exact this.trans (two_zpow_le (by norm_num))
  · rw [four]; exact (two_zpow_le (by norm_num)).trans b6
  · have := mul_le_mul_of_nonneg_left b7 (show (0 : ℝ) ≤ 4 by norm_num)
    rw [four] at this; exact this.trans (two_zpow_le (by norm_num))

end Verif
