import Verif.Lemmas.Ln2
import Verif.Lemmas.FErr
import Verif.Lemmas.SinCos4
import Verif.Model.Exp

/-!
# Bit patterns and table of the exponential functions
-/

namespace Verif
open Fmt Real

theorem pack_false (n : ℕ) : binary64.pack false n = n := by simp [pack]

/-- the pattern of a positive normal double -/
theorem bits64 {e m : ℕ} (h1 : 2 ^ 52 ≤ m) (h2 : m < 2 ^ 53) (h3 : e ≤ 2045) :
    binary64.Finite (e * 2 ^ 52 + m) ∧ binary64.val (e * 2 ^ 52 + m) = m * (2 : ℝ) ^ ((e : ℤ) - 1074) := by
  have hinf : binary64.infMag = 2047 * 2 ^ 52 := by decide +kernel
  have hlt : e * 2 ^ 52 + m < binary64.infMag := by
    rw [hinf]
    have : e * 2 ^ 52 ≤ 2045 * 2 ^ 52 := Nat.mul_le_mul_right _ h3
    omega
  have hw := lt_trans hlt binary64.infMag_lt
  have hf := binary64.finite_pack false hlt
  have hv := binary64.val_pack false hw
  rw [pack_false] at hf hv
  refine ⟨hf, ?_⟩
  have hu : binary64.umag (e * 2 ^ 52 + m) = m * 2 ^ e := binary64.umag_of (k := e) (s := m) h2 (Or.inr h1)
  rw [hv, hu, binary64.minSub_eq_zpow]
  have : binary64.emin = -1074 := by decide +kernel
  rw [this, zpow_sub₀ (by norm_num), zpow_natCast]
  push_cast
  rw [zpow_neg]; simp only [sg]; simp only [Bool.false_eq_true, if_false, one_mul]
  ring

theorem pos_inj64 {a b : ℕ} (ha : binary64.Finite a) (hb : binary64.Finite b) (h : binary64.val a = binary64.val b) (hp : 0 < binary64.val a) : a = b := by
  have key : ∀ x, 0 < binary64.val x → binary64.sgn x = false := by
    intro x hx
    cases hs : binary64.sgn x
    · rfl
    · exfalso
      rw [binary64.val_eq, hs] at hx
      have : (0 : ℝ) ≤ (binary64.umag (binary64.mag x) : ℝ) * binary64.minSub := mul_nonneg (Nat.cast_nonneg _) binary64.minSub_pos.le
      simp only [sg, if_true] at hx
      linarith
  have sa := key a hp
  have sb := key b (h ▸ hp)
  rw [binary64.val_eq, binary64.val_eq b, sa, sb] at h
  have h2 := mul_left_cancel₀ (sg_ne_zero false) h
  have h3 := mul_right_cancel₀ binary64.minSub_pos.ne' h2
  have h4 : binary64.mag a = binary64.mag b := binary64.umag_inj.1 (by exact_mod_cast h3)
  rw [← binary64.pack_sgn_mag ((binary64.finite_iff a).1 ha).1, ← binary64.pack_sgn_mag ((binary64.finite_iff b).1 hb).1, sa, sb, h4]

/-- distance of a rounding to an integer: `1/2` in nearest mode, `1` otherwise -/
noncomputable def rq (m : Mode) : ℝ := if m = .nearest then 1 / 2 else 1
theorem rq_le (m : Mode) : rq m ≤ 1 := by unfold rq; split_ifs <;> norm_num
theorem rq_pos (m : Mode) : 0 < rq m := by unfold rq; split_ifs <;> norm_num

theorem mult_int {g : ℤ} {v : ℝ} (h : Mult g v) : ∃ n : ℤ, v = n * (2 : ℝ) ^ g := h

theorem shift_aux1 {x g : ℝ} (h1 : -2 ^ 30 ≤ x) (h2 : x ≤ 2 ^ 30) (h : (2 : ℝ) ^ 30 ≤ 2 ^ 50 * g) :
    (2 ^ 52 + 2 ^ 50) * g ≤ x + (2 ^ 52 + 2 ^ 51) * g ∧ x + (2 ^ 52 + 2 ^ 51) * g ≤ (2 ^ 52 + 2 ^ 51 + 2 ^ 50) * g := by
  constructor <;> linarith
theorem shift_aux2 {v g : ℝ} (hg : 0 < g) (h1 : (2 ^ 52 + 2 ^ 50) * g ≤ v) (h2 : v ≤ (2 ^ 52 + 2 ^ 51 + 2 ^ 50) * g) : 2 ^ 52 * g ≤ v ∧ v < 2 ^ 53 * g := by
  constructor <;> linarith

/-- Adding the constant `1.5 * 2^52 / 2^j` rounds to a multiple of `2^-j`, to be read off in the low bits of the pattern. -/
theorem shift64' (md : Mode) (j : ℕ) (hj : j ≤ 10) {x sh : ℕ} (hx : binary64.Finite x) (hs : sh = (0x433 - j) * 2 ^ 52 + 2 ^ 51)
    (hb : |binary64.val x| ≤ 2 ^ 30) :
    ∃ k : ℤ, (binary64.hadd md x sh : ℤ) = (0x433 - j) * 2 ^ 52 + 2 ^ 51 + k ∧ |binary64.val x - k * (2 : ℝ) ^ (-(j : ℤ))| ≤ rq md * (2 : ℝ) ^ (-(j : ℤ)) ∧
      binary64.Finite (binary64.hsub md (binary64.hadd md x sh) sh) ∧
      binary64.val (binary64.hsub md (binary64.hadd md x sh) sh) = k * (2 : ℝ) ^ (-(j : ℤ)) ∧
      |binary64.val x - k * (2 : ℝ) ^ (-(j : ℤ))| < (2 : ℝ) ^ (-(j : ℤ)) := by
  subst hs
  have hS := bits64 (e := 1074 - j) (m := 2 ^ 52 + 2 ^ 51) (by norm_num) (by norm_num) (by omega)
  have hse : (1074 - j) * 2 ^ 52 + (2 ^ 52 + 2 ^ 51) = (0x433 - j) * 2 ^ 52 + 2 ^ 51 := by omega
  rw [hse] at hS
  obtain ⟨hSf, hSv⟩ := hS
  have hje : (((1074 - j : ℕ) : ℤ) - 1074) = -(j : ℤ) := by omega
  rw [hje] at hSv
  set S := (0x433 - j) * 2 ^ 52 + 2 ^ 51 with hSd
  set g : ℝ := (2 : ℝ) ^ (-(j : ℤ)) with hg
  have hgp : 0 < g := two_zpow_pos _
  have hg1 : g ≤ 1 := by
    have := two_zpow_le (a := -(j : ℤ)) (b := 0) (by omega); rwa [zpow_zero] at this
  have hg2 : 1 / 2 ^ 10 ≤ g := by
    have := two_zpow_le (a := -10) (b := -(j : ℤ)) (by omega)
    refine le_trans ?_ this; norm_num
  have hSv : binary64.val S = (2 ^ 52 + 2 ^ 51) * g := by rw [hSv]; norm_num
  have R := binary64.hadd_spec md hx hSf
  set b := binary64.hadd md x S
  have hV : |binary64.val x + binary64.val S| ≤ 2 ^ 200 := by
    rw [hSv]
    refine le_trans (abs_add_le _ _) ?_
    rw [abs_of_pos (show (0 : ℝ) < (2 ^ 52 + 2 ^ 51) * g by positivity)]
    have : (2 ^ 52 + 2 ^ 51) * g ≤ (2 ^ 52 + 2 ^ 51) * (1 : ℝ) := by gcongr
    have h3 : (2 : ℝ) ^ 30 + (2 ^ 52 + 2 ^ 51) * 1 ≤ 2 ^ 200 := by norm_num
    linarith
  have hV' := le_trans (big_ge hV) big_le
  obtain ⟨hbf, hulp⟩ := RoundsTo.ulp R hV'
  -- the interval
  have hx1 := (abs_le.1 hb).1
  have hx2 := (abs_le.1 hb).2
  have hg3 : (2 : ℝ) ^ 30 ≤ 2 ^ 41 * g - 2 ^ 30 := by
    have := mul_le_mul_of_nonneg_left hg2 (by positivity : (0 : ℝ) ≤ 2 ^ 41)
    have h3 : (2 : ℝ) ^ 30 + 2 ^ 30 ≤ 2 ^ 41 * (1 / 2 ^ 10) := by norm_num
    linarith
  obtain ⟨lo, lo1, lo2⟩ : ∃ c, binary64.Finite c ∧ binary64.val c = (2 ^ 52 + 2 ^ 50) * g :=
    ⟨_, (bits64 (e := 1074 - j) (m := 2 ^ 52 + 2 ^ 50) (by norm_num) (by norm_num) (by omega)).1, by
      rw [(bits64 (e := 1074 - j) (m := 2 ^ 52 + 2 ^ 50) (by norm_num) (by norm_num) (by omega)).2, hje, ← hg]; norm_num⟩
  obtain ⟨hi, hi1, hi2⟩ : ∃ c, binary64.Finite c ∧ binary64.val c = (2 ^ 52 + 2 ^ 51 + 2 ^ 50) * g :=
    ⟨_, (bits64 (e := 1074 - j) (m := 2 ^ 52 + 2 ^ 51 + 2 ^ 50) (by norm_num) (by norm_num) (by omega)).1, by
      rw [(bits64 (e := 1074 - j) (m := 2 ^ 52 + 2 ^ 51 + 2 ^ 50) (by norm_num) (by norm_num) (by omega)).2, hje, ← hg]; norm_num⟩
  have h30 : (2 : ℝ) ^ 30 ≤ 2 ^ 50 * g := by
    have : (2 : ℝ) ^ 41 * g ≤ 2 ^ 50 * g := by gcongr; norm_num; norm_num
    linarith [hg3, show (0 : ℝ) ≤ 2 ^ 30 by positivity]
  obtain ⟨-, hb1, hb2⟩ := RoundsTo.between R lo1 hi1 (by rw [lo2, hSv]; exact (shift_aux1 hx1 hx2 h30).1)
    (by rw [hi2, hSv]; exact (shift_aux1 hx1 hx2 h30).2)
  rw [lo2] at hb1
  rw [hi2] at hb2
  have hbpos : 0 < binary64.val b := lt_of_lt_of_le (by positivity) hb1
  have hbe : (binary64.F : ℤ) = 52 := rfl
  have z52 : (2 : ℝ) ^ (-(j : ℤ) + (binary64.F : ℤ)) = 2 ^ 52 * g := by rw [hbe, zpow_add₀ (by norm_num), ← hg]; norm_num; ring
  have z53 : (2 : ℝ) ^ (-(j : ℤ) + (binary64.F : ℤ) + 1) = 2 ^ 53 * g := by rw [two_zpow_succ, z52]; ring
  have hce1 : binary64.ce b ≤ -(j : ℤ) := binary64.ce_le_of (by
      have : binary64.emin = -1074 := by decide +kernel
      rw [this]; omega) (by
      rw [z53, abs_of_pos hbpos]; exact (shift_aux2 hgp hb1 hb2).2)
  have hce2 : -(j : ℤ) ≤ binary64.ce b := binary64.le_ce_of (by rw [z52, abs_of_pos hbpos]; exact (shift_aux2 hgp hb1 hb2).1)
  have hce : binary64.ce b = -(j : ℤ) := le_antisymm hce1 hce2
  have hm : Mult (-(j : ℤ)) (binary64.val b) := hce ▸ binary64.mult_ce b
  obtain ⟨n, hn⟩ := mult_int hm
  rw [← hg] at hn
  have hn1 : 2 ^ 52 + 2 ^ 50 ≤ n := by
    have : ((2 ^ 52 + 2 ^ 50 : ℤ) : ℝ) ≤ n := by rw [hn] at hb1; refine le_of_mul_le_mul_right (le_trans (le_of_eq ?_) hb1) hgp; norm_num
    exact_mod_cast this
  have hn2 : n ≤ 2 ^ 52 + 2 ^ 51 + 2 ^ 50 := by
    have : (n : ℝ) ≤ ((2 ^ 52 + 2 ^ 51 + 2 ^ 50 : ℤ) : ℝ) := by rw [hn] at hb2; refine le_of_mul_le_mul_right (le_trans hb2 (le_of_eq ?_)) hgp; norm_num
    exact_mod_cast this
  obtain ⟨nn, hnn⟩ : ∃ nn : ℕ, (nn : ℤ) = n := ⟨n.toNat, by omega⟩
  obtain ⟨q1, q2⟩ := bits64 (e := 1074 - j) (m := nn) (by omega) (by omega) (by omega)
  rw [hje, ← hg] at q2
  have hbn : b = (1074 - j) * 2 ^ 52 + nn := pos_inj64 hbf q1 (by rw [q2, hn]; congr 1; exact_mod_cast hnn.symm) hbpos
  have hk : binary64.val b - binary64.val S = ((n - (2 ^ 52 + 2 ^ 51) : ℤ) : ℝ) * g := by rw [hn, hSv]; push_cast; ring
  have R2 := binary64.hsub_spec md hbf hSf
  rw [hk] at R2
  obtain ⟨t1, t2⟩ := ex64 (-(j : ℤ)) R2 ⟨_, rfl⟩ (by omega) (by
      rw [abs_mul, abs_of_pos hgp, zpow_add₀ (by norm_num), ← hg, mul_comm]
      gcongr
      have : |n - (2 ^ 52 + 2 ^ 51)| ≤ 2 ^ 53 := by rw [abs_le]; constructor <;> omega
      exact_mod_cast this) (by
      rw [abs_mul, abs_of_pos hgp]
      have : |n - (2 ^ 52 + 2 ^ 51)| ≤ 2 ^ 53 := by rw [abs_le]; constructor <;> omega
      have : |((n - (2 ^ 52 + 2 ^ 51) : ℤ) : ℝ)| ≤ 2 ^ 53 := by exact_mod_cast this
      have h2 : |((n - (2 ^ 52 + 2 ^ 51) : ℤ) : ℝ)| * g ≤ 2 ^ 53 * 1 := mul_le_mul this hg1 hgp.le (by positivity)
      have h3 : (2 : ℝ) ^ 53 * 1 ≤ 2 ^ 200 := by norm_num
      linarith)
  refine ⟨n - (2 ^ 52 + 2 ^ 51), ?_, ?_, t1, t2, ?_⟩
  · rw [hbn]; push_cast; rw [hnn]
    have : ((1074 - j : ℕ) : ℤ) = 1074 - j := by omega
    rw [this]; ring
  · rw [← hk]
    have e : binary64.val x - (binary64.val b - binary64.val S) = -(binary64.val b - (binary64.val x + binary64.val S)) := by ring
    rw [e, abs_neg]
    unfold rq
    split_ifs with h
    · rw [h] at R
      have := (RoundsTo.half_ulp R hbf).2
      rw [hce] at this
      refine le_trans this (le_of_eq ?_)
      rw [zpow_sub₀ (by norm_num), ← hg]; norm_num; ring
    · rw [hce] at hulp; rw [one_mul]; exact hulp.le
  · rw [← hk]
    have e : binary64.val x - (binary64.val b - binary64.val S) = -(binary64.val b - (binary64.val x + binary64.val S)) := by ring
    rw [e, abs_neg]
    rw [hce] at hulp
    exact hulp

theorem shift64 (md : Mode) (j : ℕ) (hj : j ≤ 10) {x sh : ℕ} (hx : binary64.Finite x) (hs : sh = (0x433 - j) * 2 ^ 52 + 2 ^ 51)
    (hb : |binary64.val x| ≤ 2 ^ 30) :
    ∃ k : ℤ, (binary64.hadd md x sh : ℤ) = (0x433 - j) * 2 ^ 52 + 2 ^ 51 + k ∧ |binary64.val x - k * (2 : ℝ) ^ (-(j : ℤ))| ≤ rq md * (2 : ℝ) ^ (-(j : ℤ)) ∧
      binary64.Finite (binary64.hsub md (binary64.hadd md x sh) sh) ∧
      binary64.val (binary64.hsub md (binary64.hadd md x sh) sh) = k * (2 : ℝ) ^ (-(j : ℤ)) := by
  obtain ⟨k, k1, k2, k3, k4, -⟩ := shift64' md j hj hx hs hb
  exact ⟨k, k1, k2, k3, k4⟩

end Verif
