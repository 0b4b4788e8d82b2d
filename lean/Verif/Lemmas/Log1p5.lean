import Verif.Lemmas.Log1p4
import Verif.Lemmas.Cbrt2
import Verif.Lemmas.Asin7

/-!
# log1p of double: arguments away from 0 and the choice of the branch
-/

namespace Verif
open Fmt Real

/-- away from 0 the logarithm is at least `log 2 / 2` -/
theorem log1p_far {X : ℝ} (h : -1 < X) (hc : 41428 / 100000 ≤ X ∨ X ≤ -(29289 / 100000)) : 3465 / 10000 ≤ |log (1 + X)| := by
  have m := ln2_bounds
  norm_num at m
  have e1 : 2 * log (1 + X) = log ((1 + X) ^ 2) := by rw [log_pow]; norm_num
  rcases hc with hc | hc
  · have e2 : log 2 ≤ log ((1 + X) ^ 2) := log_le_log (by norm_num) (by nlinarith)
    refine le_trans ?_ (le_abs_self _)
    linarith
  · have e2 : log ((1 + X) ^ 2) ≤ log (1 / 2 * (100001 / 100000)) := log_le_log (by nlinarith) (by nlinarith)
    rw [log_mul (by norm_num) (by norm_num), one_div, log_inv] at e2
    have e3 := log_le_sub_one_of_pos (show (0 : ℝ) < 100001 / 100000 by norm_num)
    norm_num at e3
    refine le_trans ?_ (neg_abs_le _ |> neg_le.1 |> le_trans (le_refl _))
    linarith

/-- logarithm of a rounded argument -/
theorem log_round {v U L r u K : ℝ} (hv : 0 < v) (hu0 : 0 ≤ u) (hu : u ≤ 1 / 2 ^ 20) (hU : |U - v| ≤ u * v) (hL : L = log v) (hl : 3465 / 10000 ≤ |L|)
    (hK : 0 ≤ K) (hK2 : K ≤ 2) (hr : |r - log U| ≤ u * (K * |log U|)) : |r - L| ≤ (K + 2887 / 1000) * u * |L| := by
  have hU' := abs_le.1 hU
  have n := log_near (c := U) (E := v) (u := u) hv (hu.trans (by norm_num)) hu0 (by linarith) (by linarith)
  rw [← hL] at n
  have n2 : u + 2 * u ^ 2 ≤ u * (1 + 1 / 2 ^ 19) := by
    have := mul_le_mul_of_nonneg_left hu hu0
    rw [sq]; norm_num at this ⊢; linarith
  have n' := n.trans n2
  have bU := abs_near n' (le_refl |L|)
  have k1 : u * (K * |log U|) ≤ u * (K * |L|) + u * (2 / 2 ^ 19) := by
    have := mul_le_mul_of_nonneg_left bU hK
    have k2 : K * (u * (1 + 1 / 2 ^ 19)) ≤ 2 * (1 / 2 ^ 20 * (1 + 1 / 2 ^ 19)) :=
      mul_le_mul hK2 (mul_le_mul_of_nonneg_right hu (by norm_num)) (by positivity) (by norm_num)
    have k3 := mul_le_mul_of_nonneg_left (show K * |log U| ≤ K * |L| + 2 / 2 ^ 19 by norm_num at *; linarith) hu0
    linarith
  refine (abs_tri (hr.trans k1) n').trans ?_
  have k4 : u * (1 + 3 / 2 ^ 19) ≤ u * (2887 / 1000 * |L|) := mul_le_mul_of_nonneg_left (by norm_num at *; linarith) hu0
  linarith

theorem l1p_lo64 {x : ℕ} (h : -1 < binary64.val x) : -1 + 1 / 2 ^ 53 ≤ binary64.val x := by
  have h1 : binary64.Finite 0xBFEFFFFFFFFFFFFF ∧ binary64.val 0xBFEFFFFFFFFFFFFF = -1 + 1 / 2 ^ 53 := by
    refine ⟨by decide +kernel, ?_⟩
    rw [lit64 true 9007199254740991 53 (by decide +kernel) (by decide +kernel) (by decide +kernel) (by decide +kernel)]
    norm_num [sg]
  have h2 : binary64.val 0xBFF0000000000000 = -1 := by
    rw [lit64 true 4503599627370496 52 (by decide +kernel) (by decide +kernel) (by decide +kernel) (by decide +kernel)]
    norm_num [sg]
  rw [← h2, binary64.val_lt_iff_key, show binary64.key 0xBFF0000000000000 = -0x3FF0000000000000 by decide] at h
  rw [← h1.2, binary64.val_le_iff_key, show binary64.key 0xBFEFFFFFFFFFFFFF = -0x3FEFFFFFFFFFFFFF by decide]
  omega

theorem l1p_outer (md : Mode) {x : ℕ} (hx : binary64.Finite x) (h : -1 < binary64.val x) (hm : x ≠ 0x7FEFFFFFFFFFFFFF ∨ md ≠ .up)
    (hc : 41428 / 100000 ≤ binary64.val x ∨ binary64.val x ≤ -(29289 / 100000)) :
    let u := binary64.hadd md 0x3FF0000000000000 x
    binary64.heq u 0x3FF0000000000000 = false ∧ binary64.Finite (CC.logDoubleImpl md u) ∧
      |binary64.val (CC.logDoubleImpl md u) - log (1 + binary64.val x)| ≤ (414 / 100 * ru md) * |log (1 + binary64.val x)| := by
  have hu := ru_pos md
  have hu2 := ru_le md
  obtain ⟨f1, v1⟩ := fval_one64
  have lo := l1p_lo64 h
  have hl := log1p_far h hc
  have R := binary64.hadd_spec md f1 hx
  rw [v1] at R
  have key : binary64.Finite (binary64.hadd md 0x3FF0000000000000 x) ∧ |binary64.val (binary64.hadd md 0x3FF0000000000000 x) - (1 + binary64.val x)| ≤ ru md * (1 + binary64.val x) := by
    by_cases hxm : x = 0x7FEFFFFFFFFFFFFF
    · have hup : md ≠ .up := hm.resolve_left (fun h => h hxm)
      have e : binary64.hadd md 0x3FF0000000000000 x = x := by
        rw [hxm]; cases md <;> first | exact absurd rfl hup | decide +kernel
      rw [e]
      refine ⟨hx, ?_⟩
      rw [show binary64.val x - (1 + binary64.val x) = -1 by ring, abs_neg, abs_one]
      have : (2 : ℝ) ^ 60 ≤ binary64.val x := by
        have p := pat_le (P := 0x43B0000000000000) (Q := x) (by omega) (by omega)
        have q := pat64 (P := 0x43B0000000000000) (by norm_num) (by norm_num)
        rw [q.2] at p
        norm_num at p ⊢
        linarith
      have := mul_le_mul (ru_ge md) this (by norm_num) hu.le
      norm_num at this; linarith
    · have hle : 1 + binary64.val x ≤ binary64.maxFin := by
        rcases le_or_gt (binary64.val x) 1 with h1 | h1
        · refine le_trans ?_ big_le
          have : (2 : ℝ) ^ (1 : ℤ) ≤ 2 ^ (1000 : ℤ) := zpow_le_zpow_right₀ (by norm_num) (by norm_num)
          rw [zpow_one] at this
          exact le_trans (by linarith) this
        · obtain ⟨p0, p1⟩ := pos_pat64 hx (by linarith)
          have p := pat_le (P := x) (Q := 0x7FEFFFFFFFFFFFFE) (by omega) (by norm_num)
          have q := pat64 (P := 0x7FEFFFFFFFFFFFFE) (by norm_num) (by norm_num)
          rw [q.2] at p
          have h2 := binary64.maxFin_add
          have e1 : ((binary64.bias : ℤ) + 1) = 1024 := by decide
          have e2 : ((binary64.bias : ℤ) - binary64.F) = 971 := by decide
          rw [e1, e2, show (1024 : ℤ) = 971 + 53 by norm_num, zpow_add₀ (by norm_num)] at h2
          have h3 : (1 : ℝ) ≤ 2 ^ (971 : ℤ) := one_le_zpow₀ (by norm_num) (by norm_num)
          have e3 : (((0x7FEFFFFFFFFFFFFE / 2 ^ 52 : ℕ) : ℤ) - 1075) = 971 := by norm_num
          rw [e3] at p
          generalize (2 : ℝ) ^ (971 : ℤ) = G at *
          norm_num at p h2
          linarith
      have := rel_err R (by
        rw [abs_of_pos (by norm_num at lo; linarith)]
        have e : binary64.minNormal = (2 : ℝ) ^ (-1022 : ℤ) := rfl
        have e2 : (2 : ℝ) ^ (-1022 : ℤ) ≤ 2 ^ (-53 : ℤ) := zpow_le_zpow_right₀ (by norm_num) (by norm_num)
        rw [e]
        refine e2.trans ?_
        norm_num at lo ⊢; linarith) (by rw [abs_of_pos (by norm_num at lo; linarith)]; exact hle)
      rw [fu64, abs_of_pos (show 0 < 1 + binary64.val x by norm_num at lo; linarith)] at this
      exact this
  obtain ⟨fu, eu⟩ := key
  dsimp only
  generalize binary64.hadd md 0x3FF0000000000000 x = u at *
  generalize hX : binary64.val x = X at *
  have p1 : 0 < 1 + X := by linarith
  have eu2 : |binary64.val u - (1 + X)| ≤ 1 / 2 ^ 52 * (1 + X) := eu.trans (mul_le_mul_of_nonneg_right hu2 p1.le)
  have eu3 := abs_le.1 eu2
  have pU : 0 < binary64.val u := by
    norm_num at eu3; linarith [eu3.1]
  refine ⟨?_, (logDoubleImpl_err md fu pU).1, ?_⟩
  · rw [Bool.eq_false_iff, ne_eq, CC.heq_finite binary64 fu f1, v1]
    intro hE
    rw [hE] at eu3
    norm_num at eu3
    rcases hc with hc | hc <;> norm_num at hc <;> linarith [eu3.1, eu3.2]
  · refine (log_round p1 hu.le (hu2.trans (by norm_num)) eu rfl hl (by norm_num) (by norm_num) (logDoubleImpl_err md fu pU).2).trans ?_
    refine mul_le_mul_of_nonneg_right ?_ (abs_nonneg _)
    linarith


/-- the pattern of a finite double from its value: positive -/
theorem key64 {x : ℕ} (hx : binary64.Finite x) : (x < 2 ^ 63 ∧ binary64.key x = x) ∨ (2 ^ 63 ≤ x ∧ x < 2 ^ 64 ∧ binary64.key x = -((x - 2 ^ 63 : ℕ) : ℤ)) := by
  have hv : x < 2 ^ 64 := hx.1
  have e : binary64.key x = if decide (2 ^ 63 ≤ x) then -((x % 2 ^ 63 : ℕ) : ℤ) else ((x % 2 ^ 63 : ℕ) : ℤ) := rfl
  by_cases h : 2 ^ 63 ≤ x
  · right
    refine ⟨h, hv, ?_⟩
    rw [e, if_pos (by simpa using h), show x % 2 ^ 63 = x - 2 ^ 63 by omega]
  · left
    refine ⟨by omega, ?_⟩
    rw [e, if_neg (by simpa using h), show x % 2 ^ 63 = x by omega]

theorem fval_l1p : (binary64.Finite 0x3FDA83A109D0635A ∧ binary64.val 0x3FDA83A109D0635A = 7463077072102234 / 2 ^ 54) ∧
    (binary64.Finite 0xBFD2BEC2480E8C8B ∧ binary64.val 0xBFD2BEC2480E8C8B = -(5276291222637707 / 2 ^ 54)) := by
  refine ⟨⟨by decide +kernel, ?_⟩, ⟨by decide +kernel, ?_⟩⟩
  · rw [lit64 false (2 ^ 52 + 0xA83A109D0635A) 54 (by decide +kernel) (by decide +kernel) (by decide +kernel) (by decide +kernel)]
    norm_num [sg]
  · rw [lit64 true (2 ^ 52 + 0x2BEC2480E8C8B) 54 (by decide +kernel) (by decide +kernel) (by decide +kernel) (by decide +kernel)]
    norm_num [sg]

/-- the double kernel of log1p: three accuracy regimes -/
theorem log1pDoubleImpl_err (md : Mode) {x : ℕ} (hx : binary64.Finite x) (h : -1 < binary64.val x) (hm : x ≠ 0x7FEFFFFFFFFFFFFF ∨ md ≠ .up) :
    let X := binary64.val x
    let r := CC.log1pDoubleImpl md x
    binary64.Finite r ∧
      (binary64.val 0x3FDA83A109D0635A < X ∨ X < binary64.val 0xBFD2BEC2480E8C8B → |binary64.val r - log (1 + X)| ≤ 414 / 100 * ru md * |log (1 + X)|) ∧
      (binary64.val 0xBFD2BEC2480E8C8B ≤ X → X ≤ 414213 / 1000000 → |binary64.val r - log (1 + X)| ≤ (41 / 20 * ru md + |X / (2 + X)| ^ 16 / 16) * |log (1 + X)|) ∧
      |binary64.val r - log (1 + X)| ≤ 1 / 2 ^ 44 * |log (1 + X)| := by
  have hu := ru_pos md
  have hu1 := ru_ge md
  have hu2 := ru_le md
  obtain ⟨⟨fa, va⟩, ⟨fb, vb⟩⟩ := fval_l1p
  dsimp only
  unfold CC.log1pDoubleImpl
  have weak : 414 / 100 * ru md * |log (1 + binary64.val x)| ≤ 1 / 2 ^ 44 * |log (1 + binary64.val x)| :=
    mul_le_mul_of_nonneg_right (by norm_num at *; linarith) (abs_nonneg _)
  by_cases hc : binary64.val 0x3FDA83A109D0635A < binary64.val x ∨ binary64.val x < binary64.val 0xBFD2BEC2480E8C8B
  · rw [if_pos (by
      rw [Bool.or_eq_true, hgt_finite' hx fa, CC.hlt_finite binary64 hx fb]; exact hc)]
    dsimp only
    obtain ⟨a, b, c⟩ := l1p_outer md hx h hm (by
      rw [va, vb] at hc
      refine hc.imp (fun h => ?_) (fun h => ?_) <;> norm_num at h ⊢ <;> linarith)
    rw [a]
    simp only [Bool.false_eq_true, if_false]
    refine ⟨b, fun _ => c, fun h1 h2 => ?_, c.trans weak⟩
    exfalso
    rw [va, vb] at hc
    rw [vb] at h1
    rcases hc with hc | hc
    · norm_num at hc h2; linarith
    · linarith
  · rw [if_neg (by
      rw [Bool.or_eq_true, hgt_finite' hx fa, CC.hlt_finite binary64 hx fb]; exact hc)]
    have hc1 := not_lt.1 (not_or.1 hc).1
    have hc2 := not_lt.1 (not_or.1 hc).2
    -- the three answers
    have tiny : |binary64.val x| ≤ 1 / 2 ^ 53 → binary64.Finite x ∧ |binary64.val x - log (1 + binary64.val x)| ≤ (41 / 20 * ru md + |binary64.val x / (2 + binary64.val x)| ^ 16 / 16) * |log (1 + binary64.val x)| := by
      intro ht
      refine ⟨hx, (l1p_tiny ht).trans (mul_le_mul_of_nonneg_right ?_ (abs_nonneg _))⟩
      have : 0 ≤ |binary64.val x / (2 + binary64.val x)| ^ 16 / 16 := by positivity
      norm_num at *; linarith
    have inner := l1p_inner md hx (F := binary64.val x) rfl
    have c16 : (41 / 20 * ru md + |binary64.val x / (2 + binary64.val x)| ^ 16 / 16) * |log (1 + binary64.val x)| ≤ 1 / 2 ^ 44 * |log (1 + binary64.val x)| := by
      refine mul_le_mul_of_nonneg_right ?_ (abs_nonneg _)
      have hs : |binary64.val x / (2 + binary64.val x)| ≤ 172 / 1000 := by
        rw [va] at hc1
        rw [vb] at hc2
        norm_num at hc1 hc2
        rw [abs_le]
        constructor
        · rw [le_div_iff₀ (by linarith)]; linarith
        · rw [div_le_iff₀ (by linarith)]; linarith
      have := pow_le_pow_left₀ (abs_nonneg _) hs 16
      norm_num at *; linarith
    have fin : ∀ r, (binary64.Finite r ∧ |binary64.val r - log (1 + binary64.val x)| ≤ (41 / 20 * ru md + |binary64.val x / (2 + binary64.val x)| ^ 16 / 16) * |log (1 + binary64.val x)|) →
      binary64.Finite r ∧
      (binary64.val 0x3FDA83A109D0635A < binary64.val x ∨ binary64.val x < binary64.val 0xBFD2BEC2480E8C8B → |binary64.val r - log (1 + binary64.val x)| ≤ 414 / 100 * ru md * |log (1 + binary64.val x)|) ∧
      (binary64.val 0xBFD2BEC2480E8C8B ≤ binary64.val x → binary64.val x ≤ 414213 / 1000000 → |binary64.val r - log (1 + binary64.val x)| ≤ (41 / 20 * ru md + |binary64.val x / (2 + binary64.val x)| ^ 16 / 16) * |log (1 + binary64.val x)|) ∧
      |binary64.val r - log (1 + binary64.val x)| ≤ 1 / 2 ^ 44 * |log (1 + binary64.val x)| :=
      fun r hr => ⟨hr.1, fun h => absurd h hc, fun _ _ => hr.2, hr.2.trans c16⟩
    have tval : ∀ m : ℕ, m < 2 ^ 63 → m >>> 32 < 0x3ca00000 → binary64.val m ≤ 1 / 2 ^ 53 := by
      intro m hm hm2
      rw [Nat.shiftRight_eq_div_pow] at hm2
      have p := pat_le (P := m) (Q := 0x3ca0000000000000) (by omega) (by norm_num)
      have q := pat64 (P := 0x3ca0000000000000) (by norm_num) (by norm_num)
      rw [q.2] at p
      norm_num at p ⊢; linarith
    have tval2 : ∀ m : ℕ, m < 2 ^ 63 → ¬ m >>> 32 < 0x3ca00000 → 1 / 2 ^ 60 ≤ binary64.val m := by
      intro m hm hm2
      rw [Nat.shiftRight_eq_div_pow] at hm2
      have p := pat_le (P := 0x3ca0000000000000) (Q := m) (by omega) hm
      have q := pat64 (P := 0x3ca0000000000000) (by norm_num) (by norm_num)
      rw [q.2] at p
      norm_num at p ⊢; linarith
    have k1 := hc1
    have k2 := hc2
    rw [binary64.val_le_iff_key, show binary64.key 0x3FDA83A109D0635A = 0x3FDA83A109D0635A by decide] at k1
    rw [binary64.val_le_iff_key, show binary64.key 0xBFD2BEC2480E8C8B = -0x3FD2BEC2480E8C8B by decide] at k2
    rw [va] at hc1
    rw [vb] at hc2
    norm_num at hc1 hc2
    have sh1 : (x >>> 32) <<< 1 % 2 ^ 32 < 0x3ca00000 <<< 1 % 2 ^ 32 ↔ (x % 2 ^ 63) >>> 32 < 0x3ca00000 := by
      have := hx.1
      change x < 2 ^ 64 at this
      rw [Nat.shiftLeft_eq, Nat.shiftRight_eq_div_pow, Nat.shiftRight_eq_div_pow]
      norm_num
      omega
    have sh2 : (x >>> 32) >>> 31 = x / 2 ^ 63 := by
      rw [Nat.shiftRight_eq_div_pow, Nat.shiftRight_eq_div_pow]; omega
    have sh3 : x >>> 32 = x / 2 ^ 32 := Nat.shiftRight_eq_div_pow _ _
    dsimp only
    have v0 : binary64.val 0 = 0 := (binary64.val_eq_zero_iff _).2 (by decide +kernel)
    have pos : ∀ m < 2 ^ 63, 0 ≤ binary64.val m := fun m hm => by
      have := pat_le (Nat.zero_le m) hm
      rwa [v0] at this
    rcases key64 hx with ⟨hx63, hk⟩ | ⟨hx63, hx64, hk⟩
    · rw [hk] at k1 k2
      have hxm : x % 2 ^ 63 = x := by omega
      rw [hxm] at sh1
      by_cases h1 : x / 2 ^ 32 < 0x3fda827a
      · rw [if_pos (by rw [Bool.or_eq_true, decide_eq_true_eq, decide_eq_true_eq]; left; rw [sh3]; exact h1), if_neg (by rw [sh3]; omega)]
        by_cases h2 : x >>> 32 < 0x3ca00000
        · rw [if_pos (sh1.2 h2)]
          refine fin x (tiny ?_)
          rw [abs_of_nonneg (pos x hx63)]
          exact tval x hx63 h2
        · rw [if_neg (fun h => h2 (sh1.1 h)), if_pos (by rw [sh3]; omega)]
          have := tval2 x hx63 h2
          exact fin _ (inner (this.trans (le_abs_self _)) (by linarith) (by linarith))
      · rw [if_neg (by rw [Bool.or_eq_true, decide_eq_true_eq, decide_eq_true_eq, sh2, sh3]; omega), if_neg (by rw [sh3]; omega)]
        obtain ⟨a, b⟩ := l1p_reduced md (x := x) (by omega) (by omega)
        refine ⟨a, fun h => absurd h hc, fun _ h2 => ?_, b⟩
        exfalso
        have p := pat_le (P := 0x3FDA827A00000000) (Q := x) (by omega) (by omega)
        have q := pat64 (P := 0x3FDA827A00000000) (by norm_num) (by norm_num)
        rw [q.2] at p
        norm_num at p h2; linarith
    · rw [hk] at k1 k2
      have hxm : x % 2 ^ 63 = x - 2 ^ 63 := by omega
      have hv : binary64.val x = -binary64.val (x % 2 ^ 63) := by
        have := CC.val_mag binary64 x
        have e := CC.val_eq_sg_abs binary64 x
        rw [show binary64.sgn x = true by rw [show binary64.sgn x = decide (2 ^ 63 ≤ x) from rfl]; simpa using hx63] at e
        rw [show x % 2 ^ 63 = binary64.mag x from rfl, this, e]
        simp [sg]
      have hm63 : x % 2 ^ 63 < 2 ^ 63 := Nat.mod_lt _ (by norm_num)
      rw [if_pos (by rw [Bool.or_eq_true, decide_eq_true_eq, decide_eq_true_eq, sh2]; omega), if_neg (by rw [sh3]; omega)]
      by_cases h2 : (x % 2 ^ 63) >>> 32 < 0x3ca00000
      · rw [if_pos (sh1.2 h2)]
        refine fin x (tiny ?_)
        rw [hv, abs_neg, abs_of_nonneg (pos _ hm63)]
        exact tval _ hm63 h2
      · rw [if_neg (fun h => h2 (sh1.1 h)), if_pos (by rw [sh3]; omega)]
        have := tval2 _ hm63 h2
        exact fin _ (inner (by rw [hv, abs_neg]; exact this.trans (le_abs_self _)) (by linarith) (by linarith))

end Verif
