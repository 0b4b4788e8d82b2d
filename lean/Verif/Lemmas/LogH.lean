import Verif.Lemmas.LogG
import Verif.Lemmas.Ln2

/-!
# The tests before the logarithm kernels; the base-10 logarithms
-/

namespace Verif
open Fmt Real

theorem heq_inf_gen (f : Fmt) {x : ℕ} (hx : f.Finite x) (s : Bool) : f.heq x (f.inf s) = false := by
  have h := ((f.finite_iff x).1 hx).2
  have hl : f.mag (f.inf s) = f.infMag := by
    rw [inf_eq_pack, mag_pack]
    have := f.infMag_lt
    omega
  unfold heq
  simp only [Bool.and_eq_false_iff, decide_eq_false_iff_not]
  right
  intro hk
  unfold key at hk
  rw [hl] at hk
  split_ifs at hk <;> omega

/-- a positive argument passes every test -/
theorem logTests_pos (f : Fmt) {impl : ℕ → ℕ} {x : ℕ} (hx : f.Finite x) (h : 0 < f.val x) (h1 : f.Finite (FPBits.one f false)) (e1 : f.val (FPBits.one f false) = 1) :
    (f.val x ≠ 1 → CC.logTests f impl x = impl x ∧ CC.log2Tests f impl x = impl x) ∧ (f.val x = 1 → CC.logTests f impl x = 0 ∧ CC.log2Tests f impl x = 0) := by
  have f0 : f.Finite 0 := by have := f.finite_zero false; rwa [show f.zero false = 0 from by simp [Fmt.zero]] at this
  have v0 : f.val 0 = 0 := by have := f.val_zero false; rwa [show f.zero false = 0 from by simp [Fmt.zero]] at this
  have hn := (f.finite_B hx).1
  have e2 : f.heq x 0 = false := by
    rw [← Bool.not_eq_true, CC.heq_finite f hx f0, v0]; exact h.ne'
  have e3 : f.hlt x 0 = false := by
    rw [← Bool.not_eq_true, CC.hlt_finite f hx f0, v0]; exact not_lt.2 h.le
  have e5 : CC.signbit f x = false := by
    unfold CC.signbit
    rw [show f.zero false = 0 from by simp [Fmt.zero], e2, CC.isnan_eq, hn, e3]; simp
  unfold CC.logTests CC.log2Tests
  rw [e2, e3, heq_inf_gen f hx, CC.isnan_eq, hn, e5]
  have e4 : f.heq x (FPBits.one f false) = true ↔ f.val x = 1 := by rw [CC.heq_finite f hx h1, e1]
  constructor
  · intro hne
    rw [if_neg (by rw [e4]; exact hne)]
    simp only [Bool.false_eq_true, if_false, Bool.or_self]
    rw [if_neg (by rw [e4]; exact hne)]
    simp only [and_self]
  · intro he
    rw [if_pos (e4.2 he)]
    simp only [Bool.false_eq_true, if_false]
    rw [if_pos (e4.2 he)]
    simp only [and_self]

theorem one64 : FPBits.one binary64 false = 0x3FF0000000000000 := by decide +kernel
theorem one32 : FPBits.one binary32 false = 0x3F800000 := by decide +kernel
theorem fval_one32 : binary32.Finite 0x3F800000 ∧ binary32.val 0x3F800000 = 1 := by
  refine ⟨by decide +kernel, ?_⟩
  rw [zint_val (by norm_num) (by norm_num), show zint 0x3f800000 = 2 ^ 24 from by decide +kernel]; norm_num

theorem logTests_neg (f : Fmt) {impl : ℕ → ℕ} {x : ℕ} (hx : f.Finite x) (h : f.val x < 0) (h1 : f.Finite (FPBits.one f false)) (e1 : f.val (FPBits.one f false) = 1) :
    CC.logTests f impl x = FPBits.quietNaN f true 0 ∧ CC.log2Tests f impl x = FPBits.quietNaN f true 0 := by
  have f0 : f.Finite 0 := by have := f.finite_zero false; rwa [show f.zero false = 0 from by simp [Fmt.zero]] at this
  have v0 : f.val 0 = 0 := by have := f.val_zero false; rwa [show f.zero false = 0 from by simp [Fmt.zero]] at this
  have hn := (f.finite_B hx).1
  have e2 : f.heq x 0 = false := by
    rw [← Bool.not_eq_true, CC.heq_finite f hx f0, v0]; exact h.ne
  have e3 : f.hlt x 0 = true := by rw [CC.hlt_finite f hx f0, v0]; exact h
  have e4 : f.heq x (FPBits.one f false) = false := by
    rw [← Bool.not_eq_true, CC.heq_finite f hx h1, e1]
    intro hc; rw [hc] at h; linarith
  have e5 : CC.signbit f x = true := by
    unfold CC.signbit
    rw [show f.zero false = 0 from by simp [Fmt.zero], e2, CC.isnan_eq, hn, e3]; simp
  unfold CC.logTests CC.log2Tests
  rw [e2, e3, heq_inf_gen f hx, CC.isnan_eq, hn, e5, e4]
  simp

theorem logTests_nan (f : Fmt) {impl : ℕ → ℕ} {x : ℕ} (hx : f.IsNaN x) :
    CC.logTests f impl x = FPBits.quietNaN f false 0 ∧ CC.log2Tests f impl x = x := by
  have hn := (f.nanB_iff hx.1).2 hx
  have e : ∀ y, f.heq x y = false := fun y => by unfold heq; rw [hn]; rfl
  have e' : ∀ y, f.hlt x y = false := fun y => by unfold hlt; rw [hn]; rfl
  unfold CC.logTests CC.log2Tests
  rw [e, e, e', e, CC.isnan_eq, hn]
  simp

theorem ln10_near : |log 10 - 3365231883504527125129111981421568120141379515150 / 2 ^ 160| ≤ 1 / 2 ^ 98 := by
  have h : logChk 100 5 4 326124665605549911722016163881172465381768817268 (2 ^ 160) = true := by decide +kernel
  have h1 := logChk_sound h (by norm_num) (by norm_num) (by norm_num) (by norm_num)
  have e : log 10 = 3 * log 2 + log (5 / 4) := by
    rw [show (10 : ℝ) = 2 ^ 3 * (5 / 4) by norm_num, log_mul (by norm_num) (by norm_num), log_pow]; norm_num
  obtain ⟨b1, b2⟩ := ln2_bounds
  rw [Nat.cast_pow] at h1
  push_cast at h1
  rw [e]
  obtain ⟨h2, h3⟩ := abs_le.1 h1
  generalize log (5 / 4) = l5 at *
  generalize log 2 = l2 at *
  norm_num at *
  rw [abs_le]
  constructor <;> linarith

theorem log10C64 : binary64.Finite 0x3FDBCB7B1526E50E ∧ binary64.val 0x3FDBCB7B1526E50E = 3911776933737095 / 2 ^ 53 := by
  refine ⟨by decide +kernel, ?_⟩
  rw [lit64 false 7823553867474190 54 (by decide +kernel) (by decide +kernel) (by decide +kernel) (by decide +kernel)]
  norm_num [sg]

theorem log10C32 : binary32.Finite 0x3EDE5BD9 ∧ binary32.val 0x3EDE5BD9 = 14572505 / 2 ^ 25 := by
  refine ⟨by decide +kernel, ?_⟩
  rw [lit32 false 14572505 25 (by decide +kernel) (by decide +kernel) (by decide +kernel) (by decide +kernel)]
  norm_num [sg]

theorem log_ge64 {x : ℕ} (hx : binary64.Finite x) (h : 0 < binary64.val x) (h1 : binary64.val x ≠ 1) : 1 / 2 ^ 53 ≤ |log (binary64.val x)| := by
  obtain ⟨a, b⟩ := pos_pat64 hx h
  have hne : x ≠ 0x3FF0000000000000 := fun hc => h1 (by rw [hc]; exact fval_one64.2)
  rcases lt_or_gt_of_ne hne with g | g
  · have := pat_le (show x ≤ 0x3FEFFFFFFFFFFFFF by omega) (by norm_num)
    have q := pat64 (P := 0x3FEFFFFFFFFFFFFF) (by norm_num) (by norm_num)
    rw [q.2] at this
    have c := Real.log_le_sub_one_of_pos h
    have d : binary64.val x - 1 ≤ -(1 / 2 ^ 53) := by norm_num at this ⊢; linarith
    rw [abs_of_neg (by have : (0 : ℝ) < 1 / 2 ^ 53 := by norm_num
                       linarith)]
    linarith
  · have := pat_le (show 0x3FF0000000000001 ≤ x by omega) (by omega)
    have q := pat64 (P := 0x3FF0000000000001) (by norm_num) (by norm_num)
    rw [q.2] at this
    have c := Real.one_sub_inv_le_log_of_pos h
    have hv : 1 + 1 / 2 ^ 52 ≤ binary64.val x := by norm_num at this ⊢; linarith
    have d : (binary64.val x)⁻¹ ≤ (1 + 1 / 2 ^ 52)⁻¹ := inv_anti₀ (by norm_num) hv
    have e : ((1 : ℝ) + 1 / 2 ^ 52)⁻¹ ≤ 1 - 1 / 2 ^ 53 := by norm_num
    rw [abs_of_pos (by have : (0 : ℝ) < 1 / 2 ^ 53 := by norm_num
                       linarith)]
    linarith

theorem pat_le32 {P Q : ℕ} (h : P ≤ Q) (hQ : Q < 2 ^ 31) : binary32.val P ≤ binary32.val Q := by
  have key : ∀ P < 2 ^ 31, binary32.key P = P := by
    intro P hP
    have h1 : binary32.sgn P = false := by
      rw [show binary32.sgn P = decide (2 ^ 31 ≤ P) from rfl]; simpa using hP
    have h2 : binary32.mag P = P := by
      rw [show binary32.mag P = P % 2 ^ 31 from rfl]; exact Nat.mod_eq_of_lt hP
    unfold Fmt.key
    rw [h1, h2]; rfl
  rw [val_le_iff_key, key P (by omega), key Q hQ]
  exact_mod_cast h

theorem log_ge32 {x : ℕ} (hx : binary32.Finite x) (h : 0 < binary32.val x) (h1 : binary32.val x ≠ 1) : 1 / 2 ^ 24 ≤ |log (binary32.val x)| := by
  obtain ⟨a, b⟩ := pos_pat32 hx h
  have hne : x ≠ 0x3F800000 := fun hc => h1 (by rw [hc]; exact fval_one32.2)
  rcases lt_or_gt_of_ne hne with g | g
  · have := pat_le32 (show x ≤ 0x3F7FFFFF by omega) (by norm_num)
    have q := pat32 (P := 0x3F7FFFFF) (by norm_num) (by norm_num)
    rw [q.2] at this
    have c := Real.log_le_sub_one_of_pos h
    have d : binary32.val x - 1 ≤ -(1 / 2 ^ 24) := by norm_num at this ⊢; linarith
    rw [abs_of_neg (by have : (0 : ℝ) < 1 / 2 ^ 24 := by norm_num
                       linarith)]
    linarith
  · have := pat_le32 (show 0x3F800001 ≤ x by omega) (by omega)
    have q := pat32 (P := 0x3F800001) (by norm_num) (by norm_num)
    rw [q.2] at this
    have c := Real.one_sub_inv_le_log_of_pos h
    have hv : 1 + 1 / 2 ^ 23 ≤ binary32.val x := by norm_num at this ⊢; linarith
    have d : (binary32.val x)⁻¹ ≤ (1 + 1 / 2 ^ 23)⁻¹ := inv_anti₀ (by norm_num) hv
    have e : ((1 : ℝ) + 1 / 2 ^ 23)⁻¹ ≤ 1 - 1 / 2 ^ 24 := by norm_num
    rw [abs_of_pos (by have : (0 : ℝ) < 1 / 2 ^ 24 := by norm_num
                       linarith)]
    linarith

theorem log_le_of {v : ℝ} {n : ℕ} (h : (2 : ℝ) ^ (-(n : ℤ)) ≤ v) (h2 : v ≤ 2 ^ (n : ℤ)) : |log v| ≤ n := by
  have hp : 0 < v := lt_of_lt_of_le (by positivity) h
  obtain ⟨l0, l2⟩ := log2_lo
  have a := Real.log_le_log (by positivity) h
  have b := Real.log_le_log hp h2
  rw [Real.log_zpow] at a b
  have : (n : ℝ) * log 2 ≤ n * 1 := mul_le_mul_of_nonneg_left (by linarith) (by positivity)
  push_cast at a b
  rw [abs_le]; constructor <;> linarith

theorem log_le64 {x : ℕ} (hx : binary64.Finite x) (h : 0 < binary64.val x) : |log (binary64.val x)| ≤ 2 ^ 11 := by
  have h1 := binary64.abs_val_lt_ce x
  have h2 := binary64.ce_le_max hx
  have h5 := binary64.ce_ge x
  have h6 := (binary64.mult_ce x).ge h.ne'
  rw [abs_of_pos h] at h1 h6
  have e1 : binary64.bias = 1023 := by decide
  have e2 : binary64.F = 52 := by decide
  unfold emin at h5
  rw [e1, e2] at h2 h5
  rw [e2] at h1
  push_cast at h2 h5
  have := log_le_of (n := 2048) ((two_zpow_le (by push_cast; omega)).trans h6) (h1.le.trans (two_zpow_le (by push_cast; omega)))
  norm_num at this ⊢; exact this

theorem log_le32 {x : ℕ} (hx : binary32.Finite x) (h : 0 < binary32.val x) : |log (binary32.val x)| ≤ 2 ^ 11 := by
  have h1 := binary32.abs_val_lt_ce x
  have h2 := binary32.ce_le_max hx
  have h5 := binary32.ce_ge x
  have h6 := (binary32.mult_ce x).ge h.ne'
  rw [abs_of_pos h] at h1 h6
  have e1 : binary32.bias = 127 := by decide
  have e2 : binary32.F = 23 := by decide
  unfold emin at h5
  rw [e1, e2] at h2 h5
  rw [e2] at h1
  push_cast at h2 h5
  have := log_le_of (n := 2048) ((two_zpow_le (by push_cast; omega)).trans h6) (h1.le.trans (two_zpow_le (by push_cast; omega)))
  norm_num at this ⊢; exact this

/-- common step: `r` is the product of `L ≈ l` by `c ≈ 1 / λ`, rounded -/
theorem log10_aux {u η l L c lam r A K : ℝ} (hu : 0 < u) (hu2 : u ≤ 1 / 2 ^ 23) (hlam : 0 < lam) (hc : 0 < c) (hk : |c * lam - 1| ≤ K * u) (hK : K ≤ 4 / 10) (hA : A ≤ 2) (hA0 : 0 ≤ A)
    (hL : |L - l| ≤ u * (A * |l|)) (hr : |r - L * c| ≤ u * |L * c| + η) (hη : η ≤ u * (1 / 2 ^ 20) * (|l| / lam)) :
    |r - l / lam| ≤ u * ((1 + A + K + 1 / 2 ^ 16) * |l / lam|) := by
  obtain ⟨T, hT⟩ : ∃ T, l / lam = T := ⟨_, rfl⟩
  have hl : l = T * lam := by rw [← hT]; field_simp
  rw [show |l| / lam = |T| by rw [← hT, abs_div, abs_of_pos hlam]] at hη
  rw [hT]
  have hT0 := abs_nonneg T
  obtain ⟨κ, hκ⟩ : ∃ κ, c * lam = 1 + κ := ⟨c * lam - 1, by ring⟩
  rw [hκ, show 1 + κ - 1 = κ by ring] at hk
  have hKu : K * u ≤ 4 / 10 * u := mul_le_mul_of_nonneg_right hK hu.le
  have h1 : |L * c - T| ≤ u * (A * (1 + 4 / 10 * u) + K) * |T| := by
    have e : L * c - T = (L - l) * c + T * κ := by rw [hl]; linear_combination T * hκ
    rw [e]
    have a1 : |(L - l) * c| ≤ u * (A * (1 + 4 / 10 * u)) * |T| := by
      rw [abs_mul, abs_of_pos hc]
      refine (mul_le_mul_of_nonneg_right hL hc.le).trans ?_
      rw [hl, abs_mul, abs_of_pos hlam]
      have : u * (A * (|T| * lam)) * c = u * A * |T| * (1 + κ) := by rw [← hκ]; ring
      rw [this]
      have b := (abs_le.1 hk).2
      have := mul_le_mul_of_nonneg_left (show 1 + κ ≤ 1 + 4 / 10 * u by linarith) (show 0 ≤ u * A * |T| by positivity)
      linarith
    have a2 : |T * κ| ≤ |T| * (K * u) := by rw [abs_mul]; exact mul_le_mul_of_nonneg_left hk hT0
    refine (abs_add_le _ _).trans ?_
    linarith
  have hAu : A * (1 + 4 / 10 * u) ≤ A + u := by
    have := mul_le_mul_of_nonneg_right hA (show 0 ≤ 4 / 10 * u by linarith)
    linarith
  have h2 : |L * c - T| ≤ u * (A + u + K) * |T| := h1.trans (mul_le_mul_of_nonneg_right (mul_le_mul_of_nonneg_left (by linarith) hu.le) hT0)
  have h3 := abs_near h2 le_rfl
  have h4 : u * (A + u + K) * |T| ≤ 3 * u * |T| := mul_le_mul_of_nonneg_right (by
    have := mul_le_mul_of_nonneg_left (show A + u + K ≤ 3 by linarith) hu.le
    linarith) hT0
  have h5 : u * |L * c| ≤ u * ((1 + 3 * u) * |T|) := mul_le_mul_of_nonneg_left (by linarith) hu.le
  have h6 := abs_tri hr h2
  have h7 : u * u * |T| ≤ u * (1 / 2 ^ 23) * |T| := mul_le_mul_of_nonneg_right (mul_le_mul_of_nonneg_left hu2 hu.le) hT0
  have h8 : 0 ≤ u * |T| := by positivity
  have c : (4 : ℝ) * (1 / 2 ^ 23) + 1 / 2 ^ 20 ≤ 1 / 2 ^ 16 := by norm_num
  have := mul_le_mul_of_nonneg_right c h8
  generalize (1 : ℝ) / 2 ^ 23 = q1 at *
  generalize (1 : ℝ) / 2 ^ 20 = q2 at *
  generalize (1 : ℝ) / 2 ^ 16 = q3 at *
  nlinarith

theorem log10Impl_err (md : Mode) {x : ℕ} (hx : binary64.Finite x) (h : 0 < binary64.val x) (h1 : binary64.val x ≠ 1) :
    binary64.Finite (binary64.hmul md (CC.logDoubleImpl md x) 0x3FDBCB7B1526E50E) ∧
      |binary64.val (binary64.hmul md (CC.logDoubleImpl md x) 0x3FDBCB7B1526E50E) - logb 10 (binary64.val x)| ≤ ru md * (5 / 2 * |logb 10 (binary64.val x)|) := by
  obtain ⟨fL, eL⟩ := logDoubleImpl_err md hx h
  obtain ⟨fc, vc⟩ := log10C64
  have lge := log_ge64 hx h h1
  have lle := log_le64 hx h
  have hu := ru_pos md
  have hu2 := ru_le md
  obtain ⟨t1, t2⟩ := abs_le.1 ln10_near
  generalize CC.logDoubleImpl md x = Lb at *
  unfold logb
  generalize log (binary64.val x) = l at *
  have bL : |binary64.val Lb| ≤ 2 ^ 12 := by
    refine (abs_near eL lle).trans ?_
    have : ru md * (5 / 4 * |l|) ≤ 1 / 2 * (5 / 4 * 2 ^ 11) := mul_le_mul (hu2.trans (by norm_num)) (by linarith) (by positivity) (by norm_num)
    norm_num at this ⊢; linarith
  obtain ⟨fr, er⟩ := mul64_err md fL fc (by
    rw [vc, abs_mul]
    refine (mul_le_mul bL (show |(3911776933737095 / 2 ^ 53 : ℝ)| ≤ 1 by rw [abs_le]; constructor <;> norm_num) (abs_nonneg _) (by norm_num)).trans (by norm_num))
  rw [vc] at er
  refine ⟨fr, ?_⟩
  have l10 : (2 : ℝ) ≤ log 10 ∧ log 10 ≤ 3 := by norm_num at t1 t2; constructor <;> linarith
  have key := log10_aux (K := 23 / 100) (A := 5 / 4) (lam := log 10) hu (hu2.trans (by norm_num)) (by linarith [l10.1]) (by norm_num) (by
    have : |3911776933737095 / 2 ^ 53 * log 10 - 1| ≤ 23 / 100 * (1 / 2 ^ 53) := by
      norm_num at t1 t2
      rw [abs_le]; constructor <;> norm_num <;> linarith
    exact this.trans (mul_le_mul_of_nonneg_left (ru_ge md) (by norm_num))) (by norm_num) (by norm_num) (by norm_num) eL er (by
    have a : (1 : ℝ) / 2 ^ 55 ≤ |l| / log 10 := by
      rw [le_div_iff₀ (by linarith [l10.1])]
      have := mul_le_mul_of_nonneg_left l10.2 (show (0 : ℝ) ≤ 1 / 2 ^ 55 by positivity)
      refine this.trans (le_trans ?_ lge)
      norm_num
    have b : (1 : ℝ) / 2 ^ 53 * (1 / 2 ^ 20) * (1 / 2 ^ 55) ≤ ru md * (1 / 2 ^ 20) * (|l| / log 10) :=
      mul_le_mul (mul_le_mul_of_nonneg_right (ru_ge md) (by positivity)) a (by positivity) (by positivity)
    exact eta_le.trans (le_trans (by norm_num) b))
  refine key.trans (mul_le_mul_of_nonneg_left (mul_le_mul_of_nonneg_right (by norm_num) (abs_nonneg _)) hu.le)

theorem log10Implf_err (md : Mode) {x : ℕ} (hx : binary32.Finite x) (h : 0 < binary32.val x) (h1 : binary32.val x ≠ 1) :
    binary32.Finite (binary32.hmul md (CC.logFloatImpl md x) 0x3EDE5BD9) ∧
      |binary32.val (binary32.hmul md (CC.logFloatImpl md x) 0x3EDE5BD9) - logb 10 (binary32.val x)| ≤ ruf md * (31 / 10 * |logb 10 (binary32.val x)|) := by
  obtain ⟨fL, eL⟩ := logFloatImpl_err md hx h
  obtain ⟨fc, vc⟩ := log10C32
  have lge := log_ge32 hx h h1
  have lle := log_le32 hx h
  have hu := ruf_pos md
  have hu2 := ruf_le md
  obtain ⟨t1, t2⟩ := abs_le.1 ln10_near
  generalize CC.logFloatImpl md x = Lb at *
  unfold logb
  generalize log (binary32.val x) = l at *
  have bL : |binary32.val Lb| ≤ 2 ^ 12 := by
    refine (abs_near eL lle).trans ?_
    have : ruf md * (13 / 8 * |l|) ≤ 1 / 2 * (13 / 8 * 2 ^ 11) := mul_le_mul (hu2.trans (by norm_num)) (by linarith) (by positivity) (by norm_num)
    norm_num at this ⊢; linarith
  obtain ⟨fr, er⟩ := mul32_err md fL fc (by
    rw [vc, abs_mul]
    refine (mul_le_mul bL (show |(14572505 / 2 ^ 25 : ℝ)| ≤ 1 by rw [abs_le]; constructor <;> norm_num) (abs_nonneg _) (by norm_num)).trans (by norm_num))
  rw [vc] at er
  refine ⟨fr, ?_⟩
  have l10 : (2 : ℝ) ≤ log 10 ∧ log 10 ≤ 3 := by norm_num at t1 t2; constructor <;> linarith
  have key := log10_aux (K := 391 / 1000) (A := 13 / 8) (lam := log 10) hu hu2 (by linarith [l10.1]) (by norm_num) (by
    have : |14572505 / 2 ^ 25 * log 10 - 1| ≤ 391 / 1000 * (1 / 2 ^ 24) := by
      norm_num at t1 t2
      rw [abs_le]; constructor <;> norm_num <;> linarith
    exact this.trans (mul_le_mul_of_nonneg_left (ruf_ge md) (by norm_num))) (by norm_num) (by norm_num) (by norm_num) eL er (by
    have a : (1 : ℝ) / 2 ^ 26 ≤ |l| / log 10 := by
      rw [le_div_iff₀ (by linarith [l10.1])]
      have := mul_le_mul_of_nonneg_left l10.2 (show (0 : ℝ) ≤ 1 / 2 ^ 26 by positivity)
      refine this.trans (le_trans ?_ lge)
      norm_num
    have b : (1 : ℝ) / 2 ^ 24 * (1 / 2 ^ 20) * (1 / 2 ^ 26) ≤ ruf md * (1 / 2 ^ 20) * (|l| / log 10) :=
      mul_le_mul (mul_le_mul_of_nonneg_right (ruf_ge md) (by positivity)) a (by positivity) (by positivity)
    exact etaf_le.trans (le_trans (by norm_num) b))
  refine key.trans (mul_le_mul_of_nonneg_left (mul_le_mul_of_nonneg_right (by norm_num) (abs_nonneg _)) hu.le)

end Verif
